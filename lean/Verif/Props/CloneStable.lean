import Verif.Props.CloneWidth

/-!
Property C146: where no activation of the model switches, the bounds and the scores on `clone(model, method)` are the exact ones, for the methods with
affine bounds and for `crown`.
-/

namespace Decomon

section
variable {X ι κ : Type} [Fintype ι]

/-- The tensors `f` tell the values of `y` on `S`: they hold, the affine bounds are `y`, and the constants, when they stand alone, are values of
`y`. -/
structure Sharp (m : Mode) (S : Set (ι → ℝ)) (f : Full X ι κ ℝ) (y : (ι → ℝ) → κ → ℝ) : Prop where
  valid : ∀ p ∈ S, Valid m false f p (y p)
  aff : getAffine m = true → ∀ p ∈ S, ∀ k, f.toBack.evalU p k = y p k ∧ f.toBack.evalL p k = y p k
  const : m = .ibp → ∀ k, (∃ p ∈ S, f.uc k = y p k) ∧ ∃ p ∈ S, f.lc k = y p k

theorem Sharp.tip {D : PertDomain X ι ℝ} {m : Mode} {S : Set (ι → ℝ)} {f : Full X ι κ ℝ} {y : (ι → ℝ) → κ → ℝ} (h : Sharp m S f y)
    (hS : D.Sound f.x S) (hD : Attains D f.x S) : Tip D m S f y := by
  by_cases hm : getAffine m = true
  · exact Pin.tip ⟨h.valid, h.aff hm⟩ hm hS hD
  · obtain rfl : m = .ibp := by cases m <;> simp_all [getAffine]
    refine ⟨fun p hp k => ?_, fun k => ?_⟩ <;> rw [tighten_ibp_eq]
    · exact (h.valid p hp).const rfl k
    · exact h.const rfl k

theorem sharp_convert2Mode [DecidableEq ι] (D : PertDomain X ι ℝ) (mFrom mTo : Mode) (hm : mFrom ≠ .ibp ∨ mTo = .ibp) (f : Full X ι κ ℝ)
    (S : Set (ι → ℝ)) (hS : D.Sound f.x S) (hD : Attains D f.x S) (y : (ι → ℝ) → κ → ℝ) (h : Sharp mFrom S f y) :
    Sharp mTo S (convert2Mode D mFrom mTo f) y := by
  refine ⟨fun p hp => C29_convert2Mode_valid D mFrom mTo hm f S hS p hp _ (h.valid p hp), fun ha p hp k => ?_, fun e k => ?_⟩
  · have hf : getAffine mFrom = true := by cases mFrom <;> cases mTo <;> simp_all [getAffine]
    have := h.aff hf p hp k
    cases mFrom <;> cases mTo <;> first | exact this | exact absurd hf (by decide) | exact absurd ha (by decide)
  · subst e
    have := (h.tip hS hD).tight k
    cases mFrom <;> exact this

theorem carried_sharp {m : Mode} {x0 : X} {f : Full X ι κ ℝ} {S : Set (ι → ℝ)} {y : (ι → ℝ) → κ → ℝ} (h : Sharp m S f y) :
    Sharp m S (f.carried m x0) y := by
  refine ⟨fun p hp => carried_valid (h.valid p hp), fun ha p hp k => ?_, fun e k => ?_⟩
  · have := h.aff ha p hp k
    simpa only [Full.toBack, Full.carried, ha, if_true] using this
  · subst e; exact h.const rfl k

end

section
variable {n : ℕ}

theorem flat_sharp {X : Type} {m : Mode} {s : List ℕ} {f : Full X (Idx [n]) (Idx s) ℝ} {S : Set (Idx [n] → ℝ)} {y : (Idx [n] → ℝ) → Idx s → ℝ}
    {T : Set (Fin n → ℝ)} (h : Sharp m S f y) (hT : ∀ p : Fin n → ℝ, p ∈ T ↔ (fun i => p ((oneAxis n).symm i)) ∈ S) :
    Sharp m T f.flat fun p c => y (fun i => p ((oneAxis n).symm i)) ((ravel s).symm c) := by
  have e : ∀ (w : Idx [n] → ℝ) (b : ℝ) (p : Fin n → ℝ), affEval (fun i => w (oneAxis n i)) b p = affEval w b fun i => p ((oneAxis n).symm i) :=
    fun w b p => by
      simp only [affEval]
      rw [← (oneAxis n).sum_comp]
      simp
  have back : ∀ (P : (Idx [n] → ℝ) → Prop), (∃ p ∈ S, P p) → ∃ p ∈ T, P fun i => p ((oneAxis n).symm i) := fun P ⟨p, hp, h⟩ =>
    ⟨fun i => p (oneAxis n i), (hT _).2 (by simpa using hp), by simpa using h⟩
  refine ⟨fun p hp => flat_valid (h.valid _ ((hT p).1 hp)), fun ha p hp c => ?_, fun em c => ?_⟩
  · have := h.aff ha _ ((hT p).1 hp) ((ravel s).symm c)
    exact ⟨(e (fun i => f.wu i ((ravel s).symm c)) (f.bu ((ravel s).symm c)) p).trans this.1,
      (e (fun i => f.wl i ((ravel s).symm c)) (f.bl ((ravel s).symm c)) p).trans this.2⟩
  · have := h.const em ((ravel s).symm c)
    exact ⟨back _ this.1, back _ this.2⟩

/-- The methods whose bounds are exact where nothing switches: all but the two that use interval bounds inside. -/
def Method.Follows (k : Method) : Prop := k ≠ .forwardIbp ∧ k ≠ .crownForwardIbp

theorem Method.Follows.crown {k : Method} (hk : k.Follows) (h : k.mode = .ibp) : k = .crown := by
  revert hk h
  cases k <;> simp only [Method.Follows] <;> decide

/-- The conversion of a graph on a region where no activation switches. -/
theorem runPlan_sharp {X : Type} (D : PertDomain X (Idx [n]) ℝ) (stack : (Idx [n] → ℝ) → (Idx [n] → ℝ) → X) (k : Method) (hk : k.Follows)
    (fi fa : Option Bool) (eps : ℝ) (he : 0 < eps) (slope : Slope) (inp : Full X (Idx [n]) (Idx [n]) ℝ) (S : Set (Idx [n] → ℝ))
    (hD : D.Sound inp.x S) (hA : Attains D inp.x S) (hi : getAffine k.mode = true → Pin k.mode S inp fun p => p)
    (hm : k.mode ≠ .ibp ∨ k.final fi fa = .ibp) (hsS : k.mode = .ibp → D.Sound (stack inp.lc inp.uc) S)
    (hst : k.mode = .ibp → Attains D (stack inp.lc inp.uc) S) (G : KGraph n) (order : List ℕ) (o M : ℕ) (hG : G.ReluFor k order o M)
    (N : (v : ℕ) → Net ℝ (Idx [n]) (Idx (G.sh v))) (hN : G.IsNet order N) (hs : (N o).Stable S) (fuel : ℕ) (hf : order.length ≤ fuel + 1)
    (nameOf : ℕ → String) :
    ∃ r : Full X (Idx [n]) (Idx (G.sh o)) ℝ,
      G.runPlan D stack ⟨decide (k ≠ .crown), isBackward k, k.mode, k.final fi fa⟩ eps slope inp M (fuel + 1) order nameOf o =
        .ok ((r.toList (k.final fi fa)).map Ten.toB) ∧ Sharp (k.final fi fa) S r fun p => (N o).eval p := by
  have hwf := net_wf G order hG.sorted N hN hG.layers o hG.out
  cases hkb : isBackward k with
  | true =>
    have hc := net_chain G order hG.sorted N hN (hG.chain hkb) o hG.out
    obtain ⟨out, e1, e2⟩ := C141_backward ⟨D, stack, k.mode, eps, slope, decide (k ≠ .crown), inp⟩ (k.final fi fa) hm G M fuel order hG.sorted hf
      nameOf o hG.out hG.depth hG.used (hG.chain hkb) N hN
    obtain ⟨⟨b, h1, h2⟩, -⟩ := node_pin ⟨D, stack, k.mode, eps, slope, decide (k ≠ .crown), inp⟩ he S hD hA hsS hst hi (fun h => by
        simp [hk.crown h]) (N o) hc hwf hs inferInstance
    obtain ⟨c1, c2, c3⟩ := convert_pin ⟨D, stack, k.mode, eps, slope, decide (k ≠ .crown), inp⟩ S hD hA hsS hst b (fun p => (N o).eval p) h2
    have e3 : out = convert2BackwardMode D stack k.mode inp b := by
      rw [CrownCfg.model, h1] at e1
      exact (Except.ok.inj e1).symm
    refine ⟨_, by simp only [KGraph.runPlan, if_true]; exact e2, ?_⟩
    refine sharp_convert2Mode D k.mode _ hm out S ?_ ?_ _ ⟨by rw [e3]; exact c2, fun ha => by rw [e3]; exact (c3 ha).eq, fun em c => ?_⟩
    · rw [e3, convert_x]; exact hD
    · rw [e3, convert_x]; exact hA
    · have := c1.tight c
      change (∃ p ∈ S, ((convert2BackwardMode D stack k.mode inp b).tighten D k.mode true true).uc c = _) ∧
        ∃ p ∈ S, ((convert2BackwardMode D stack k.mode inp b).tighten D k.mode true true).lc c = _ at this
      rw [em, tighten_ibp_eq, ← em, ← e3] at this
      exact this
  | false =>
    have ha : getAffine k.mode = true := by
      cases k <;> first | decide | exact absurd rfl hk.1 | exact absurd hkb (by decide)
    have e := C141_forward D k.mode (k.final fi fa) hm eps slope inp G M fuel order hG.sorted nameOf o hG.out hG.depth hG.used N hN
    have h := net_pin ha eps he slope inp hD hA (hi ha) (N o) hwf hs
    refine ⟨_, by simp only [KGraph.runPlan, Bool.false_eq_true, if_false, e]; rfl, ?_⟩
    refine sharp_convert2Mode D k.mode _ hm _ S (by rw [Net.forward_x]; exact hD) (by rw [Net.forward_x]; exact hA) _ ⟨h.valid, fun _ => h.eq, fun em => ?_⟩
    rw [em] at ha
    exact absurd ha (by decide)

end

section
variable {n : ℕ} (G : KGraph n) (order : List ℕ) (o M : ℕ)

/-- No activation of the formula of the output switches on the set `T` of inputs. -/
def StableOn {G : KGraph n} (N : (v : ℕ) → Net ℝ (Idx [n]) (Idx (G.sh v))) (o : ℕ) (T : Set (Fin n → ℝ)) : Prop :=
  (N o).Stable {q | (fun i => q (oneAxis n i)) ∈ T}

theorem clone_sharp (k : Method) (hk : k.Follows) (hG : G.ReluFor k order o M) (N : (v : ℕ) → Net ℝ (Idx [n]) (Idx (G.sh v)))
    (hN : G.IsNet order N) (fi fa : Option Bool) (hm : k.mode ≠ .ibp ∨ k.final fi fa = .ibp) (eps : ℝ) (he : 0 < eps) (slope : Slope) (fuel : ℕ)
    (hf : order.length ≤ fuel + 1) (nameOf : ℕ → String) (b : BoxOf (Fin n) ℝ) (hb : ∀ i, b.1 i ≤ b.2 i) (hs : StableOn N o (Box b.1 b.2))
    (f : Full (BoxOf (Idx [n]) ℝ) (Fin n) (Fin (G.sh o).prod) ℝ)
    (e : G.cloneOnBox k.value fi fa eps slope M (fuel + 1) order nameOf o b = .ok f) :
    Sharp (k.final fi fa) (Box b.1 b.2) f fun p c => (N o).eval (fun i => p ((oneAxis n).symm i)) ((ravel (G.sh o)).symm c) := by
  have eS : {q : Idx [n] → ℝ | (fun i => q (oneAxis n i)) ∈ Box b.1 b.2} =
      Box (fun i => b.1 ((oneAxis n).symm i)) (fun i => b.2 ((oneAxis n).symm i)) := by
    ext q
    constructor
    · intro h i
      have := h ((oneAxis n).symm i)
      simpa using this
    · intro h i
      have := h (oneAxis n i)
      simpa using this
  have hs' := hs
  rw [StableOn, eS] at hs'
  obtain ⟨r, e', h⟩ := runPlan_sharp boxDomain Prod.mk k hk fi fa eps he slope
      (inputTensorsBox k.mode (fun i => b.1 ((oneAxis n).symm i)) (fun i => b.2 ((oneAxis n).symm i)))
      (Box (fun i => b.1 ((oneAxis n).symm i)) (fun i => b.2 ((oneAxis n).symm i))) (boxDomain_sound _ _) (box_attains _ _ fun i => hb _)
      (fun ha => box_pin k.mode ha _ _) hm (fun h => by rw [h]; exact boxDomain_sound _ _) (fun h => by rw [h]; exact box_attains _ _ fun i => hb _)
      G order o M hG N hN hs' fuel hf nameOf
  have e2 : G.cloneOnBox k.value fi fa eps slope M (fuel + 1) order nameOf o b =
      .ok (r.carried (k.final fi fa) (fun i => b.1 ((oneAxis n).symm i), fun i => b.2 ((oneAxis n).symm i))).flat := by
    simp only [KGraph.cloneOnBox, clonePlan_value, Except.bind, e', mapM_toB]; exact wrapperOutput_toList _ _ _
  rw [e] at e2
  rw [Except.ok.inj e2]
  refine flat_sharp (carried_sharp (x0 := ((fun i => b.1 ((oneAxis n).symm i), fun i => b.2 ((oneAxis n).symm i)) : BoxOf (Idx [n]) ℝ)) h) fun p => ?_
  rw [← eS]
  simp

/-- The formula of the output is its value. -/
theorem output_eval (k : Method) (hG : G.ReluFor k order o M) (N : (v : ℕ) → Net ℝ (Idx [n]) (Idx (G.sh v))) (hN : G.IsNet order N)
    (p : Fin n → ℝ) (y : Fin (G.sh o).prod → ℝ) :
    G.IsOutput order o p y ↔ y = fun c => (N o).eval (fun i => p ((oneAxis n).symm i)) ((ravel (G.sh o)).symm c) := by
  have one : ∀ y, G.IsOutput order o p y → y = fun c => (N o).eval (fun i => p ((oneAxis n).symm i)) ((ravel (G.sh o)).symm c) := by
    rintro y ⟨z, hz, hy⟩
    funext c
    rw [← C141_value G order hG.sorted N hN _ z hz o hG.out, ← hy, Equiv.apply_symm_apply]
  refine ⟨one y, fun e => ?_⟩
  obtain ⟨y', h, -⟩ := C132_output G order o M hG.toReady p
  rw [e, ← one y' h]
  exact h

/-- C146: over a box where no activation switches, the affine bounds that the caller of `clone` unpacks are the model itself, and the bounds that
`get_range_box` reads are its greatest and its least value. -/
theorem C146_onBox (k : Method) (hk : k.Follows) (hG : G.ReluFor k order o M) (N : (v : ℕ) → Net ℝ (Idx [n]) (Idx (G.sh v)))
    (hN : G.IsNet order N) (fi fa : Option Bool) (hm : k.mode ≠ .ibp ∨ k.final fi fa = .ibp) (eps : ℝ) (he : 0 < eps) (slope : Slope) (fuel : ℕ)
    (hf : order.length ≤ fuel + 1) (nameOf : ℕ → String) :
    ∃ net : BoxOf (Fin n) ℝ → Full (BoxOf (Idx [n]) ℝ) (Fin n) (Fin (G.sh o).prod) ℝ,
      (∀ b, G.cloneOnBox k.value fi fa eps slope M (fuel + 1) order nameOf o b = .ok (net b)) ∧
      ∀ b : BoxOf (Fin n) ℝ, (∀ i, b.1 i ≤ b.2 i) → StableOn N o (Box b.1 b.2) → ∀ F, (∀ p, G.IsOutput order o p (F p)) →
        (∀ p ∈ Box b.1 b.2, Valid (k.final fi fa) false (net b) p (F p)) ∧
        ExactOn (k.final fi fa) (Box b.1 b.2) (net b) F (rangeUpper (k.final fi fa) b (net b)) (rangeLower (k.final fi fa) b (net b)) := by
  obtain ⟨net, h1, -⟩ := C142_onBox G order o M k hG N hN fi fa hm eps he slope fuel hf nameOf
  refine ⟨net, h1, fun b hb hs F hF => ?_⟩
  have h := clone_sharp G order o M k hk hG N hN fi fa hm eps he slope fuel hf nameOf b hb hs (net b) (h1 b)
  have eF : F = fun p c => (N o).eval (fun i => p ((oneAxis n).symm i)) ((ravel (G.sh o)).symm c) :=
    funext fun p => (output_eval G order o M k hG N hN p _).1 (hF p)
  rw [← eF] at h
  refine ⟨h.valid, ?_⟩
  have h' : Sharp (k.final fi fa) (Box b.1 b.2) (⟨b, (net b).uc, (net b).wu, (net b).bu, (net b).lc, (net b).wl, (net b).bl, (net b).h, (net b).g⟩ :
      Full (BoxOf (Fin n) ℝ) (Fin n) (Fin (G.sh o).prod) ℝ) F := ⟨fun p hp => ⟨(h.valid p hp).const, (h.valid p hp).aff, by simp⟩, h.aff, h.const⟩
  have t := (h'.tip (D := boxDomain) (boxDomain_sound b.1 b.2) (box_attains b.1 b.2 hb)).exactOn (fun ha => ⟨h'.valid, h'.aff ha⟩)
    (rangeUpper (k.final fi fa) b (net b)) (rangeLower (k.final fi fa) b (net b))
    (fun c => (range_tighten (k.final fi fa) b (⟨b, (net b).uc, (net b).wu, (net b).bu, (net b).lc, (net b).wl, (net b).bl, (net b).h, (net b).g⟩ :
      Full (BoxOf (Fin n) ℝ) (Fin n) (Fin (G.sh o).prod) ℝ) rfl c).1)
    (fun c => (range_tighten (k.final fi fa) b (⟨b, (net b).uc, (net b).wu, (net b).bu, (net b).lc, (net b).wl, (net b).bl, (net b).h, (net b).g⟩ :
      Full (BoxOf (Fin n) ℝ) (Fin n) (Fin (G.sh o).prod) ℝ) rfl c).2)
  exact ⟨t.aff, t.upper, t.lower⟩

end

section
variable {n : ℕ} (G : KGraph (n + 1)) (order : List ℕ) (o M : ℕ)

/-- The values that the model takes over a box, for one output. -/
def valuesOn (b : BoxOf (Fin (n + 1)) ℝ) (c : Fin (G.sh o).prod) : Set ℝ := {v | ∃ p ∈ Box b.1 b.2, ∃ y, G.IsOutput order o p y ∧ v = y c}

/-- C146: `get_range_box` without sub-boxes, where no activation switches: the exact range of every output. -/
theorem C146_range (k : Method) (hk : k.Follows) (hG : G.ReluFor k order o M) (N : (v : ℕ) → Net ℝ (Idx [n + 1]) (Idx (G.sh v)))
    (hN : G.IsNet order N) (fi fa : Option Bool) (hm : k.mode ≠ .ibp ∨ k.final fi fa = .ibp) (eps : ℝ) (he : 0 < eps) (slope : Slope) (fuel : ℕ)
    (hf : order.length ≤ fuel + 1) (nameOf : ℕ → String) (batch nSub : ℕ) (hn : nSub ≤ 1)
    (bs : List (BoxOf (Fin (n + 1)) ℝ)) (hb : ∀ b ∈ bs, ∀ i, b.1 i ≤ b.2 i) (hs : ∀ b ∈ bs, StableOn N o (Box b.1 b.2)) :
    ∃ net us ls, (∀ b, G.cloneOnBox k.value fi fa eps slope M (fuel + 1) order nameOf o b = .ok (net b)) ∧
      getRangeBox net (k.final fi fa) batch nSub bs = .ok (us, ls) ∧
      ∀ i b, bs[i]? = some b → ∀ c : Fin (G.sh o).prod, ∃ u l, us[i * (G.sh o).prod + c]? = some u ∧ ls[i * (G.sh o).prod + c]? = some l ∧
        IsGreatest (valuesOn G order o b c) u ∧ IsLeast (valuesOn G order o b c) l := by
  obtain ⟨net, h1, h2⟩ := C146_onBox G order o M k hk hG N hN fi fa hm eps he slope fuel hf nameOf
  choose F hF hu using C132_output G order o M hG.toReady
  have e : subBoxes nSub bs = (bs, 1) := by unfold subBoxes; rw [if_neg (by omega)]
  refine ⟨net, _, _, h1, by rw [getRangeBox_eq net _ batch nSub bs hb, e]; simp only [lt_irrefl, if_false]; rfl, fun i b hi c => ?_⟩
  have hmem := List.mem_of_getElem? hi
  have h := (h2 b (hb b hmem) (hs b hmem) F hF).2
  have ev : valuesOn G order o b c = (fun p => F p c) '' Box b.1 b.2 := by
    ext v
    constructor
    · rintro ⟨p, hp, y, hy, rfl⟩; exact ⟨p, hp, by rw [hu p y hy]⟩
    · rintro ⟨p, hp, rfl⟩; exact ⟨p, hp, F p, hF p, rfl⟩
  exact ⟨_, _, flatRows_getElem? _ i _ (by rw [List.getElem?_map, hi]; rfl) c,
    flatRows_getElem? _ i _ (by rw [List.getElem?_map, hi]; rfl) c, by rw [ev]; exact h.upper c, by rw [ev]; exact h.lower c⟩

theorem range_exact_of {X : Type} {d : ℕ} (hd : d = 1) (net : BoxOf (Fin (n + 1)) ℝ → Full X (Fin (n + 1)) (Fin d) ℝ) (m : Mode)
    (F : (Fin (n + 1) → ℝ) → Fin d → ℝ) (bs : List (BoxOf (Fin (n + 1)) ℝ)) (hb : ∀ b ∈ bs, ∀ i, b.1 i ≤ b.2 i) (nSub batch : ℕ)
    (hx : ∀ b ∈ bs, ∀ c ∈ refineBoxes true nSub b, ExactOn m (Box c.1 c.2) (net c) F (rangeUpper m c (net c)) (rangeLower m c (net c))) :
    ∃ us ls, getRangeBox net m batch nSub bs = .ok (us, ls) ∧ us.length = bs.length ∧ ls.length = bs.length ∧
      ∀ (i : ℕ) (b : BoxOf (Fin (n + 1)) ℝ), bs[i]? = some b → ∃ u l, us[i]? = some u ∧ ls[i]? = some l ∧ ∀ c,
        IsGreatest ((fun p => F p c) '' Box b.1 b.2) u ∧ IsLeast ((fun p => F p c) '' Box b.1 b.2) l := by
  subst hd
  obtain ⟨us, ls, h1, h2, h3, h4⟩ := C127_range net m F bs hb nSub batch hx
  refine ⟨us, ls, h1, h2, h3, fun i b hi => ?_⟩
  obtain ⟨u, l, g1, g2, g3⟩ := h4 i b hi
  exact ⟨u, l, g1, g2, fun c => by rw [Fin.fin_one_eq_zero c]; exact g3⟩

/-- C146: `get_range_box` with sub-boxes on a model with one output: the exact range as soon as no activation switches inside any sub-box, although
activations may switch from one sub-box to another. -/
theorem C146_range_split (hd : (G.sh o).prod = 1) (k : Method) (hk : k.Follows) (hG : G.ReluFor k order o M)
    (N : (v : ℕ) → Net ℝ (Idx [n + 1]) (Idx (G.sh v))) (hN : G.IsNet order N) (fi fa : Option Bool) (hm : k.mode ≠ .ibp ∨ k.final fi fa = .ibp)
    (eps : ℝ) (he : 0 < eps) (slope : Slope) (fuel : ℕ) (hf : order.length ≤ fuel + 1) (nameOf : ℕ → String) (batch nSub : ℕ)
    (bs : List (BoxOf (Fin (n + 1)) ℝ)) (hb : ∀ b ∈ bs, ∀ i, b.1 i ≤ b.2 i)
    (hs : ∀ b ∈ bs, ∀ b' ∈ refineBoxes true nSub b, StableOn N o (Box b'.1 b'.2)) :
    ∃ net us ls, (∀ b, G.cloneOnBox k.value fi fa eps slope M (fuel + 1) order nameOf o b = .ok (net b)) ∧
      getRangeBox net (k.final fi fa) batch nSub bs = .ok (us, ls) ∧ us.length = bs.length ∧ ls.length = bs.length ∧
      ∀ (i : ℕ) (b : BoxOf (Fin (n + 1)) ℝ), bs[i]? = some b → ∃ u l, us[i]? = some u ∧ ls[i]? = some l ∧ ∀ c,
        IsGreatest (valuesOn G order o b c) u ∧ IsLeast (valuesOn G order o b c) l := by
  obtain ⟨net, h1, h2⟩ := C146_onBox G order o M k hk hG N hN fi fa hm eps he slope fuel hf nameOf
  choose F hF hu using C132_output G order o M hG.toReady
  obtain ⟨us, ls, g1, g2, g3, g4⟩ := range_exact_of hd net (k.final fi fa) F bs hb nSub batch fun b hb1 b' hb2 =>
    (h2 b' ((covers_refine nSub b).good (hb b hb1) b' hb2).1 (hs b hb1 b' hb2) F hF).2
  refine ⟨net, us, ls, h1, g1, g2, g3, fun i b hi => ?_⟩
  obtain ⟨u, l, e1, e2, e3⟩ := g4 i b hi
  refine ⟨u, l, e1, e2, fun c => ?_⟩
  have ev : valuesOn G order o b c = (fun p => F p c) '' Box b.1 b.2 := by
    ext v
    constructor
    · rintro ⟨p, hp, y, hy, rfl⟩; exact ⟨p, hp, by rw [hu p y hy]⟩
    · rintro ⟨p, hp, rfl⟩; exact ⟨p, hp, F p, hF p, rfl⟩
  rw [ev]
  exact e3 c

/-- C146: `get_adv_box` with a final mode that has affine bounds: the score is the greatest difference (target minus source) that the Keras model
reaches over the box, as soon as no activation switches inside any sub-box. -/
theorem C146_adv [Nonempty (Fin (G.sh o).prod)] (k : Method) (hk : k.Follows) (hG : G.ReluFor k order o M)
    (N : (v : ℕ) → Net ℝ (Idx [n + 1]) (Idx (G.sh v))) (hN : G.IsNet order N) (fi fa : Option Bool) (hm : k.mode ≠ .ibp ∨ k.final fi fa = .ibp)
    (ha : getAffine (k.final fi fa) = true)
    (eps : ℝ) (he : 0 < eps) (slope : Slope) (fuel : ℕ) (hf : order.length ≤ fuel + 1) (nameOf : ℕ → String) (batch nSub : ℕ)
    (r : AdvSample (Fin (n + 1)) (Fin (G.sh o).prod) ℝ) (hb : ∀ i, r.box.1 i ≤ r.box.2 i) (hl : Labels r.src r.tgt)
    (hsh : (G.sh o).length = 1 ∨ k.final fi fa = .affine) (hs : ∀ b' ∈ refineBoxes true nSub r.box, StableOn N o (Box b'.1 b'.2)) :
    ∃ net sc, (∀ b, G.cloneOnBox k.value fi fa eps slope M (fuel + 1) order nameOf o b = .ok (net b)) ∧
      getAdvBoxOf (G.sh o) net (k.final fi fa) batch nSub [r] = .ok [sc] ∧
      IsGreatest {d | ∃ p ∈ Box r.box.1 r.box.2, ∃ y, G.IsOutput order o p y ∧ ∃ t s, r.tgt t = 1 ∧ r.src s = 1 ∧ d = y t - y s} sc := by
  obtain ⟨net, h1, h2⟩ := C146_onBox G order o M k hk hG N hN fi fa hm eps he slope fuel hf nameOf
  choose F hF hu using C132_output G order o M hG.toReady
  have good := fun b' hb' => ((covers_refine nSub r.box).good hb b' hb').1
  obtain ⟨sc, g1, g2⟩ := C127_adv net (k.final fi fa) ha F r hb hl nSub batch (fun b' hb' => (h2 b' (good b' hb') (hs b' hb') F hF).1)
    fun b' hb' => (h2 b' (good b' hb') (hs b' hb') F hF).2
  refine ⟨net, sc, h1, by rw [C132_adv_shape _ net _ hsh, g1], ?_⟩
  have ev : {d | ∃ p ∈ Box r.box.1 r.box.2, ∃ y, G.IsOutput order o p y ∧ ∃ t s, r.tgt t = 1 ∧ r.src s = 1 ∧ d = y t - y s} =
      {d | ∃ p ∈ Box r.box.1 r.box.2, ∃ t s, r.tgt t = 1 ∧ r.src s = 1 ∧ d = F p t - F p s} := by
    ext v
    constructor
    · rintro ⟨p, hp, y, hy, t, s, ht, hs, rfl⟩; exact ⟨p, hp, t, s, ht, hs, by rw [hu p y hy]⟩
    · rintro ⟨p, hp, t, s, ht, hs, rfl⟩; exact ⟨p, hp, F p, hF p, t, s, ht, hs, rfl⟩
  rw [ev]
  exact g2

/-- C146: so the sign of the score decides robustness there. -/
theorem C146_decides [Nonempty (Fin (G.sh o).prod)] (k : Method) (hk : k.Follows) (hG : G.ReluFor k order o M)
    (N : (v : ℕ) → Net ℝ (Idx [n + 1]) (Idx (G.sh v))) (hN : G.IsNet order N) (fi fa : Option Bool) (hm : k.mode ≠ .ibp ∨ k.final fi fa = .ibp)
    (ha : getAffine (k.final fi fa) = true)
    (eps : ℝ) (he : 0 < eps) (slope : Slope) (fuel : ℕ) (hf : order.length ≤ fuel + 1) (nameOf : ℕ → String) (batch nSub : ℕ)
    (r : AdvSample (Fin (n + 1)) (Fin (G.sh o).prod) ℝ) (hb : ∀ i, r.box.1 i ≤ r.box.2 i) (hl : Labels r.src r.tgt)
    (hsh : (G.sh o).length = 1 ∨ k.final fi fa = .affine) (hs : ∀ b' ∈ refineBoxes true nSub r.box, StableOn N o (Box b'.1 b'.2)) :
    ∃ net sc, (∀ b, G.cloneOnBox k.value fi fa eps slope M (fuel + 1) order nameOf o b = .ok (net b)) ∧
      getAdvBoxOf (G.sh o) net (k.final fi fa) batch nSub [r] = .ok [sc] ∧
      (sc < 0 ↔ ∀ p ∈ Box r.box.1 r.box.2, ∀ y, G.IsOutput order o p y → ∀ t s, r.tgt t = 1 → r.src s = 1 → y t < y s) := by
  obtain ⟨net, sc, h1, h2, h3⟩ := C146_adv G order o M k hk hG N hN fi fa hm ha eps he slope fuel hf nameOf batch nSub r hb hl hsh hs
  refine ⟨net, sc, h1, h2, fun h p hp y hy t s ht hss => ?_, fun h => ?_⟩
  · have := h3.2 ⟨p, hp, y, hy, t, s, ht, hss, rfl⟩
    linarith
  · obtain ⟨p, hp, y, hy, t, s, ht, hss, e⟩ := h3.1
    have := h p hp y hy t s ht hss
    linarith

/-- C146: `get_range_noise` on a ball where no activation switches: the exact range of every output. -/
theorem C146_noise (k : Method) (hG : G.ReluFor k order o M) (N : (v : ℕ) → Net ℝ (Idx [n + 1]) (Idx (G.sh v))) (hN : G.IsNet order N)
    (fi fa : Option Bool) (hk : k.mode ≠ .ibp) (leps : ℝ) (hl : 0 < leps)
    (slope : Slope) (eps : ℝ) (he : 0 ≤ eps) (q : PVal) (hq : q = .inf ∨ q = .fin 1 ∨ q = .fin 2)
    (stack : (Idx [n + 1] → ℝ) → (Idx [n + 1] → ℝ) → Idx [n + 1] → ℝ) (fuel : ℕ) (hf : order.length ≤ fuel + 1) (nameOf : ℕ → String)
    (x : Fin (n + 1) → ℝ) (hs : StableOn N o (LpBall x eps q)) :
    ∃ net, G.cloneOnBall k.value fi fa leps slope eps q stack M (fuel + 1) order nameOf o x = .ok net ∧
      ∀ c, ∃ u l, noiseUpper (k.final fi fa) eps q x net c = .ok u ∧ noiseLower (k.final fi fa) eps q x net c = .ok l ∧
        IsGreatest {v | ∃ p ∈ LpBall x eps q, ∃ y, G.IsOutput order o p y ∧ v = y c} u ∧
        IsLeast {v | ∃ p ∈ LpBall x eps q, ∃ y, G.IsOutput order o p y ∧ v = y c} l := by
  haveI : Nonempty (Idx [n + 1]) := ⟨oneAxis (n + 1) 0⟩
  have hT : ∀ p : Fin (n + 1) → ℝ, p ∈ LpBall x eps q ↔
      (fun i => p ((oneAxis (n + 1)).symm i)) ∈ LpBall (fun i => x ((oneAxis (n + 1)).symm i)) eps q := fun p => ⟨lpBall_oneAxis, fun h => by
    have e : ∀ g : Fin (n + 1) → ℝ, ∑ i, g ((oneAxis (n + 1)).symm i) = ∑ i, g i := fun g => (oneAxis (n + 1)).symm.sum_comp g
    rcases h with ⟨h1, h2⟩ | ⟨h1, h2⟩ | ⟨h1, h0, h2⟩
    · exact .inl ⟨h1, fun i => by simpa using h2 (oneAxis (n + 1) i)⟩
    · exact .inr (.inl ⟨h1, by rw [← e fun i => |p i - x i|]; exact h2⟩)
    · exact .inr (.inr ⟨h1, h0, by rw [← e fun i => (p i - x i) ^ 2]; exact h2⟩)⟩
  have eS : {q' : Idx [n + 1] → ℝ | (fun i => q' (oneAxis (n + 1) i)) ∈ LpBall x eps q} = LpBall (fun i => x ((oneAxis (n + 1)).symm i)) eps q := by
    ext q'
    rw [Set.mem_setOf_eq, hT]
    simp
  have hs' := hs
  rw [StableOn, eS] at hs'
  have hf' : k.Follows := by cases k <;> first | exact absurd rfl hk | exact ⟨by decide, by decide⟩
  obtain ⟨r, e, h⟩ := runPlan_sharp (ballDomain eps q) stack k hf' fi fa leps hl slope
    (inputTensorsBall k.mode eps q fun i => x ((oneAxis (n + 1)).symm i)) (LpBall (fun i => x ((oneAxis (n + 1)).symm i)) eps q)
    (ball_input_sound k.mode eps q _) (ball_attains eps he q hq _) (fun ha => ball_pin k.mode ha eps q _) (.inl hk) (fun h => absurd h hk)
    (fun h => absurd h hk) G order o M hG N hN hs' fuel hf nameOf
  refine ⟨_, by simp only [KGraph.cloneOnBall, clonePlan_value, Except.bind, e, mapM_toB]; exact wrapperOutput_toList _ _ _, fun c => ?_⟩
  have H := flat_sharp (carried_sharp (x0 := fun i => x ((oneAxis (n + 1)).symm i)) h) hT
  have t := noise_tighten (k.final fi fa) eps q hq x { (r.carried (k.final fi fa) fun i => x ((oneAxis (n + 1)).symm i)).flat with x := x } rfl c
  have H' : Sharp (k.final fi fa) (LpBall x eps q) { (r.carried (k.final fi fa) fun i => x ((oneAxis (n + 1)).symm i)).flat with x := x } _ :=
    ⟨fun p hp => ⟨(H.valid p hp).const, (H.valid p hp).aff, by simp⟩, H.aff, H.const⟩
  have b := (H'.tip (D := ballDomain eps q) (show (ballDomain eps q).Sound x _ from ball_input_sound .affine eps q x) (ball_attains eps he q hq x)).exactOn (fun ha => ⟨H'.valid, H'.aff ha⟩) _ _
    (fun _ => rfl) fun _ => rfl
  have ev : {v | ∃ p ∈ LpBall x eps q, ∃ y, G.IsOutput order o p y ∧ v = y c} =
      (fun p => (N o).eval (fun i => p ((oneAxis (n + 1)).symm i)) ((ravel (G.sh o)).symm c)) '' LpBall x eps q := by
    ext v
    constructor
    · rintro ⟨p, hp, y, hy, rfl⟩
      exact ⟨p, hp, by rw [(output_eval G order o M k hG N hN p y).1 hy]⟩
    · rintro ⟨p, hp, rfl⟩
      exact ⟨p, hp, _, (output_eval G order o M k hG N hN p _).2 rfl, rfl⟩
  exact ⟨_, _, t.1, t.2, by rw [ev]; exact b.upper c, by rw [ev]; exact b.lower c⟩

end

/-! ### Concrete graphs -/

/-- The two halves of `[-4, 4]`. -/
theorem halves_cut (b' : BoxOf (Fin 1) ℝ) (h : b' ∈ refineBoxes true 2 ((fun _ => -4, fun _ => 4) : BoxOf (Fin 1) ℝ)) :
    b' = (fun _ => -4, fun _ => 0) ∨ b' = (fun _ => 0, fun _ => 4) := by
  simp only [refineBoxes, refineLoop, splitBoxes, if_true, List.length_singleton, List.map_cons, List.map_nil, List.cons_append, List.nil_append,
    List.length_cons, List.length_nil] at h
  norm_num at h
  rcases h with rfl | rfl
  · refine .inl (Prod.ext rfl (funext fun i => ?_))
    have e : argmax (boxWidth ((fun _ => -4, fun _ => 4) : BoxOf (Fin 1) ℝ)) = i := Fin.ext (by omega)
    simp [lowHalf, e]
  · refine .inr (Prod.ext (funext fun i => ?_) rfl)
    have e : argmax (boxWidth ((fun _ => -4, fun _ => 4) : BoxOf (Fin 1) ℝ)) = i := Fin.ext (by omega)
    simp [highHalf, e]

theorem reluPlus_value (p : Fin 1 → ℝ) (y : Fin [1].prod → ℝ) (k : Method) (hk : isBackward k = false)
    (h : reluPlusGraph.IsOutput [0, 1, 2] 2 p y) (c : Fin [1].prod) : y c = max (p 0) 0 + p 0 := by
  rw [(output_eval reluPlusGraph [0, 1, 2] 2 2 k (reluPlus_reluFor k hk) reluPlusNet reluPlus_isNet p y).1 h]
  have : ∀ i : Idx [1], p ((oneAxis 1).symm i) = p 0 := fun i => congrArg p (Subsingleton.elim _ _)
  simp [reluPlusNet, Net.eval, Lay.eval, MergeOp.eval, this]

/-- `relu(x) + x` over `[-4, 4]` with two sub-boxes: the ReLU switches, but inside neither of them, and the methods `forward-affine` and
`forward-hybrid` return the exact range `[-4, 8]`. -/
example (k : Method) (hb : isBackward k = false) (hk : k.Follows) : ∃ net,
    (∀ b, reluPlusGraph.cloneOnBox k.value none none (1 / 10000000) .vSlope 2 4 [0, 1, 2] (fun v => toString v) 2 b = .ok (net b)) ∧
    getRangeBox net k.mode 1 2 [(fun _ => -4, fun _ => 4)] = .ok ([8], [-4]) := by
  have st : ∀ l u : ℝ, 0 ≤ l ∨ u ≤ 0 → StableOn (G := reluPlusGraph) reluPlusNet 2 (Box (fun _ : Fin 1 => l) fun _ => u) := fun l u h => by
    refine ⟨⟨trivial, fun i => ?_⟩, trivial, trivial⟩
    rcases h with h | h
    · refine .inl ?_
      rintro _ ⟨q, hq, rfl⟩
      have := (hq ((oneAxis 1).symm i)).1
      simp only [Equiv.apply_symm_apply] at this
      exact h.trans this
    · refine .inr ?_
      rintro _ ⟨q, hq, rfl⟩
      have := (hq ((oneAxis 1).symm i)).2
      simp only [Equiv.apply_symm_apply] at this
      exact this.trans h
  obtain ⟨net, us, ls, h1, h2, h3, h3', h4⟩ := @C146_range_split 0 reluPlusGraph [0, 1, 2] 2 2 rfl k hk (reluPlus_reluFor k hb) reluPlusNet
    reluPlus_isNet none none (by cases k <;> decide) (1 / 10000000) (by norm_num) .vSlope 3 (by simp) (fun v => toString v) 1 2
    [(fun _ => -4, fun _ => 4)] (by intro b hb; obtain rfl := List.mem_singleton.1 hb; intro i; norm_num) (by
      intro b hb b' hb'
      obtain rfl := List.mem_singleton.1 hb
      rcases halves_cut b' hb' with rfl | rfl
      · exact st _ _ (.inr le_rfl)
      · exact st _ _ (.inl le_rfl))
  refine ⟨net, h1, h2.trans ?_⟩
  obtain ⟨u, l, g1, g2, g3⟩ := h4 0 _ rfl
  obtain ⟨a, rfl⟩ := List.length_eq_one_iff.1 h3
  obtain ⟨b, rfl⟩ := List.length_eq_one_iff.1 h3'
  obtain rfl : a = u := by simpa using g1
  obtain rfl : b = l := by simpa using g2
  obtain ⟨q1, q2⟩ := g3 (⟨0, by decide⟩ : Fin [1].prod)
  have ev : valuesOn reluPlusGraph [0, 1, 2] 2 ((fun _ => -4, fun _ => 4) : BoxOf (Fin 1) ℝ) (⟨0, by decide⟩ : Fin [1].prod) =
      (fun t : ℝ => max t 0 + t) '' Set.Icc (-4) 4 := by
    ext v
    constructor
    · rintro ⟨p, hp, y, hy, rfl⟩
      exact ⟨p 0, hp 0, (reluPlus_value p y k hb hy _).symm⟩
    · rintro ⟨t, ht, rfl⟩
      obtain ⟨y, hy, -⟩ := C132_output reluPlusGraph [0, 1, 2] 2 2 (reluPlus_reluFor k hb).toReady fun _ => t
      exact ⟨fun _ => t, fun _ => ht, y, hy, (reluPlus_value _ y k hb hy _).symm⟩
  rw [ev] at q1 q2
  have m1 : IsGreatest ((fun t : ℝ => max t 0 + t) '' Set.Icc (-4) 4) 8 := by
    refine ⟨⟨4, by norm_num, by norm_num⟩, ?_⟩
    rintro _ ⟨t, ht, rfl⟩
    have := max_le ht.2 (by norm_num : (0 : ℝ) ≤ 4)
    linarith [ht.2]
  have m2 : IsLeast ((fun t : ℝ => max t 0 + t) '' Set.Icc (-4) 4) (-4) := by
    refine ⟨⟨-4, by norm_num, by norm_num⟩, ?_⟩
    rintro _ ⟨t, ht, rfl⟩
    have := le_max_right t 0
    linarith [ht.1]
  rw [q1.unique m1, q2.unique m2]

/-- Two ReLUs over `[2, 3] × [-2, -1]`: with the four methods that have affine bounds, the score of target `1` against source `0` is the greatest
difference. -/
example (k : Method) (hk : k.Follows) (ha : getAffine k.mode = true) : ∃ net,
    (∀ b, reluTwoGraph.cloneOnBox k.value none none (1 / 10000000) .vSlope 2 4 [0, 1, 2] (fun v => toString v) 2 b = .ok (net b)) ∧
    getAdvBoxOf [2] net k.mode 1 1 [⟨(![2, -2], ![3, -1]), ![1, 0], ![0, 1]⟩] = .ok [-2] := by
  have hl : Labels (![1, 0] : Fin 2 → ℝ) ![0, 1] := ⟨fun k => by fin_cases k <;> simp, fun k => by fin_cases k <;> simp, ⟨1, rfl⟩, 0, rfl⟩
  obtain ⟨net, sc, h1, h2, h3⟩ := @C146_adv 1 reluTwoGraph [0, 1, 2] 2 2 ⟨⟨0, by decide⟩⟩ k hk (reluTwo_reluFor k) reluTwoNet reluTwo_isNet
    none none (by cases k <;> decide) (by cases k <;> first | rfl | exact ha) (1 / 10000000) (by norm_num)
    .vSlope 3 (by simp) (fun v => toString v) 1 1 ⟨(![2, -2], ![3, -1]), ![1, 0], ![0, 1]⟩ (by intro i; fin_cases i <;> norm_num) hl (.inl rfl) (by
      rw [refineBoxes_le_one 1 le_rfl]
      intro b' hb'
      obtain rfl := List.mem_singleton.1 hb'
      refine ⟨⟨trivial, trivial⟩, fun i => ?_⟩
      rcases (show (oneAxis 2).symm i = 0 ∨ (oneAxis 2).symm i = 1 by omega) with h | h
      · refine .inl ?_
        rintro _ ⟨q, hq, rfl⟩
        have a : (2 : ℝ) ≤ q (oneAxis 2 0) := (hq 0).1
        rw [← h, Equiv.apply_symm_apply] at a
        exact (by norm_num : (0 : ℝ) ≤ 2).trans a
      · refine .inr ?_
        rintro _ ⟨q, hq, rfl⟩
        have a : q (oneAxis 2 1) ≤ (-1 : ℝ) := (hq 1).2
        rw [← h, Equiv.apply_symm_apply] at a
        exact a.trans (by norm_num : (-1 : ℝ) ≤ 0))
  refine ⟨net, h1, h2.trans ?_⟩
  obtain ⟨p, hp, y, hy, t, s, ht, hs, e⟩ := h3.1
  have et : t = ⟨1, by decide⟩ := by
    match t, ht with
    | ⟨1, _⟩, _ => rfl
    | ⟨0, _⟩, h => exact absurd h (by change ¬ ((0 : ℝ) = 1); norm_num)
  have es : s = ⟨0, by decide⟩ := by
    match s, hs with
    | ⟨0, _⟩, _ => rfl
    | ⟨1, _⟩, h => exact absurd h (by change ¬ ((0 : ℝ) = 1); norm_num)
  obtain ⟨v0, v1⟩ := reluTwo_value p y hy
  have h0 : (2 : ℝ) ≤ p 0 := (hp 0).1
  have h1 : p 1 ≤ (-1 : ℝ) := (hp 1).2
  obtain ⟨y', hy', -⟩ := C132_output reluTwoGraph [0, 1, 2] 2 2 (reluTwo_reluFor k).toReady ![2, -1]
  obtain ⟨w0, w1⟩ := reluTwo_value _ y' hy'
  have ge := h3.2 ⟨![2, -1], by intro i; fin_cases i <;> norm_num, y', hy', ⟨1, by decide⟩, ⟨0, by decide⟩, rfl, rfl, rfl⟩
  have a0 : (2 : ℝ) ≤ y ⟨0, by decide⟩ := v0 ▸ h0.trans (le_max_right _ _)
  have a1 : y ⟨1, by decide⟩ = (0 : ℝ) := v1.trans (max_eq_left (h1.trans (by norm_num)))
  have b0 : y' ⟨0, by decide⟩ = (2 : ℝ) := w0.trans (max_eq_right (by norm_num))
  have b1 : y' ⟨1, by decide⟩ = (0 : ℝ) := w1.trans (max_eq_left (by norm_num))
  rw [et, es] at e
  have le : sc ≤ -2 := by
    rw [e]
    change y ⟨1, by decide⟩ - y ⟨0, by decide⟩ ≤ -2
    linarith
  have ge' : -2 ≤ sc := by
    refine le_trans (le_of_eq ?_) ge
    change _ = y' ⟨1, by decide⟩ - y' ⟨0, by decide⟩
    rw [b0, b1]
    norm_num
  rw [le_antisymm le ge']

end Decomon
