import Verif.Props.CloneSlack
import Verif.Props.Stable
import Verif.Props.Width

/-!
Property C145: on models made of linear layers, ReLUs and merge layers on two inputs, how far the bounds and the scores are from the exact ones is
known before running anything, for every method.
-/

namespace Decomon

section
variable {X ι κ : Type} [Fintype ι] [DecidableEq ι]

/-- The interval bounds of a network on any domain. -/
theorem ibp_width (D : PertDomain X ι ℝ) (eps : ℝ) (sl : Slope) (inp : Full X ι ι ℝ) (s : ι → ℝ) (hs : ∀ i, 0 ≤ s i)
    (hb : ∀ i, inp.uc i - inp.lc i ≤ s i) (N : Net ℝ ι κ) (hN : N.WF) (hm : N.NoMultiply) (k : κ) :
    (N.forward D .ibp eps sl inp).uc k - (N.forward D .ibp eps sl inp).lc k ≤ N.spread s k := by
  induction N with
  | input => exact hb k
  | layer n l ih => exact l.width_spread D eps sl hN.2 _ (fun t => n.spread_nonneg hN.1 s hs t) _ (fun t => ih hN.1 hm t) k
  | merge op n0 n1 ih0 ih1 =>
    exact op.width_spread D eps hm.1 _ _ k _ _ (n0.spread_nonneg hN.1 s hs k) (n1.spread_nonneg hN.2 s hs k) (ih0 hN.1 hm.2.1 k)
      (ih1 hN.2 hm.2.2 k)

theorem held_convert2Mode (D : PertDomain X ι ℝ) (mFrom mTo : Mode) (hm : mFrom ≠ .ibp ∨ mTo = .ibp) (f : Full X ι κ ℝ) (S : Set (ι → ℝ))
    (hD : Attains D f.x S) (u l : κ → ℝ) (h : Held mFrom S f u l) : Held mTo S (convert2Mode D mFrom mTo f) u l := by
  refine ⟨fun e k => ?_, fun ha p hp k => ?_⟩
  · subst e
    have := h.tighten D hD k
    cases mFrom <;> exact this
  · have hf : getAffine mFrom = true := by cases mFrom <;> cases mTo <;> simp_all [getAffine]
    have := h.aff hf p hp k
    cases mFrom <;> cases mTo <;> first | exact this | exact absurd hf (by decide) | exact absurd ha (by decide)

omit [DecidableEq ι] [Fintype ι] in
theorem carried_held [Fintype ι] {m : Mode} {x0 : X} {f : Full X ι κ ℝ} {S : Set (ι → ℝ)} {u l : κ → ℝ} (h : Held m S f u l) :
    Held m S (f.carried m x0) u l := by
  refine ⟨fun e k => ?_, fun ha p hp k => ?_⟩
  · subst e; exact h.const rfl k
  · have := h.aff ha p hp k
    cases m <;> first | exact this | exact absurd ha (by decide)

/-- In every mode, the bound of a pair of labels used by `get_adv_box`. -/
noncomputable def pairOf {X : Type} (m : Mode) (b : BoxOf ι ℝ) (f : Full X ι κ ℝ) (t s : κ) : ℝ := if getAffine m then affinePair b f t s else ibpPair f t s

omit [DecidableEq ι] in
theorem advBase_any [Fintype κ] [Nonempty κ] (net : BoxOf ι ℝ → Full X ι κ ℝ) (m : Mode) (l : List (AdvSample ι κ ℝ))
    (h : ∀ r ∈ l, GoodBox r.box ∧ Labels r.src r.tgt) :
    ∃ scs, advBase net m l = .ok scs ∧
      List.Forall₂ (fun (r : AdvSample ι κ ℝ) sc => ∃ t s, r.tgt t = 1 ∧ r.src s = 1 ∧ sc ≤ pairOf m r.box (net r.box) t s) l scs := by
  cases m with
  | ibp =>
    obtain ⟨scs, e, g⟩ := advBase_greatest net l h
    refine ⟨scs, e, g.imp fun r sc hr => ?_⟩
    obtain ⟨t, s, ht, hs, e⟩ := hr.1
    exact ⟨t, s, ht, hs, e.le⟩
  | affine => exact advBase_pair net .affine rfl l h
  | hybrid => exact advBase_pair net .hybrid rfl l h

theorem held_pair {m : Mode} {b : BoxOf ι ℝ} {f : Full X ι κ ℝ} {u l : κ → ℝ} (h : Held m (Box b.1 b.2) f u l) (hb : ∀ i, b.1 i ≤ b.2 i) (t s : κ) :
    pairOf m b f t s ≤ u t - l s := by
  unfold pairOf
  split_ifs with ha
  · obtain ⟨p, hp, ep⟩ := (box_attains b.1 b.2 hb (fun i => f.wu i t - f.wl i s) (f.bu t - f.bl s)).1
    have e1 : affinePair b f t s = affEval (fun i => f.wu i t) (f.bu t) p - affEval (fun i => f.wl i s) (f.bl s) p := by
      refine ep.symm.trans ?_
      simp only [affEval, sub_mul, Finset.sum_sub_distrib]
      ring
    rw [e1]
    exact sub_le_sub (h.aff ha p hp t).2 (h.aff ha p hp s).1
  · obtain rfl : m = .ibp := by cases m <;> first | rfl | exact absurd rfl ha
    exact sub_le_sub (h.const rfl t).2 (h.const rfl s).1

omit [DecidableEq ι] in
theorem held_near {m : Mode} {S : Set (ι → ℝ)} {f : Full X ι κ ℝ} {u l y e : κ → ℝ} (h : Held m S f u l) {p : ι → ℝ} (hp : p ∈ S) (v : Near m f p y e)
    (k : κ) : l k - e k ≤ y k ∧ y k ≤ u k + e k := by
  by_cases ha : getAffine m = true
  · have h1 := h.aff ha p hp k
    have h2 := v.aff ha k
    simp only [Full.toBack, Back.evalL, Back.evalU] at h1
    constructor <;> linarith
  · obtain rfl : m = .ibp := by cases m <;> first | rfl | exact absurd rfl ha
    have h1 := h.const rfl k
    have h2 := v.const rfl k
    constructor <;> linarith

end

section
variable {X : Type} {n : ℕ} {κ : Type} [Fintype κ] [Nonempty κ]

/-- Sub-boxes on which the bounds hold up to `e` and stay in intervals narrower than `d` give scores that are reached up to `2 * d + 2 * e`. -/
theorem adv_reached (net : BoxOf (Fin (n + 1)) ℝ → Full X (Fin (n + 1)) κ ℝ) (m : Mode) (F : (Fin (n + 1) → ℝ) → κ → ℝ) (e d : κ → ℝ)
    (val : ∀ c : BoxOf (Fin (n + 1)) ℝ, ∀ p ∈ Box c.1 c.2, Near m (net c) p (F p) e) (batch nSub : ℕ)
    (rows : List (AdvSample (Fin (n + 1)) κ ℝ)) (hb : ∀ r ∈ rows, ∀ i, r.box.1 i ≤ r.box.2 i) (hl : ∀ r ∈ rows, Labels r.src r.tgt)
    (hh : ∀ r ∈ rows, ∀ c ∈ refineBoxes true nSub r.box, ∃ u l : κ → ℝ, (∀ k, u k - l k ≤ d k) ∧ Held m (Box c.1 c.2) (net c) u l) :
    ∃ scs, getAdvBox net m batch nSub rows = .ok scs ∧
      List.Forall₂ (fun (r : AdvSample (Fin (n + 1)) κ ℝ) sc => ∃ p ∈ Box r.box.1 r.box.2, ∃ t s, r.tgt t = 1 ∧ r.src s = 1 ∧
        sc ≤ F p t - F p s + (d t + e t) + (d s + e s)) rows scs := by
  obtain ⟨scs, h1, h2⟩ := getAdvBox_map net m _ batch nSub rows Labels hl hb (fun l => advBase_any _ m l)
  refine ⟨scs, h1, ?_⟩
  rw [List.forall₂_iff_get] at h2 ⊢
  refine ⟨h2.1, fun i i1 i2 => ?_⟩
  obtain ⟨grp, g1, e'⟩ := h2.2 i i1 i2
  have hr := List.get_mem rows ⟨i, i1⟩
  generalize rows.get ⟨i, i1⟩ = r at *
  have hne : grp ≠ [] := by
    intro hn'
    rw [hn'] at g1
    exact refineBoxes_ne_nil nSub r.box (by simpa using g1)
  obtain ⟨c, hc, t, s, ht, hs, hle⟩ := forall₂_right g1 (listMax_mem hne)
  have g := (covers_refine nSub r.box).good (hb r hr) c hc
  have hc1 : c.1 ∈ Box c.1 c.2 := fun j => ⟨le_rfl, g.1 j⟩
  obtain ⟨u, l, w, H⟩ := hh r hr c hc
  have hle : listMax grp ≤ pairOf m c (net c) t s := hle
  refine ⟨c.1, subBox_box g.2 hc1, t, s, ht, hs, ?_⟩
  rw [e']
  have := held_pair H g.1 t s
  have := (held_near H hc1 (val c c.1 hc1) t).1
  have := (held_near H hc1 (val c c.1 hc1) s).2
  have := w t
  have := w s
  linarith

end

section
variable {n : ℕ}

theorem flat_held {X : Type} {m : Mode} {s : List ℕ} {f : Full X (Idx [n]) (Idx s) ℝ} {S : Set (Idx [n] → ℝ)} {u l : Idx s → ℝ} (h : Held m S f u l) :
    Held m {p : Fin n → ℝ | (fun i => p ((oneAxis n).symm i)) ∈ S} f.flat (fun k => u ((ravel s).symm k)) (fun k => l ((ravel s).symm k)) := by
  have e : ∀ (w : Idx [n] → ℝ) (b : ℝ) (p : Fin n → ℝ), affEval (fun i => w (oneAxis n i)) b p = affEval w b fun i => p ((oneAxis n).symm i) :=
    fun w b p => by
      simp only [affEval]
      rw [← (oneAxis n).sum_comp]
      simp
  refine ⟨fun hi k => h.const hi _, fun ha p hp k => ?_⟩
  have := h.aff ha _ hp ((ravel s).symm k)
  simp only [Full.toBack, Back.evalU, Back.evalL] at this ⊢
  rw [← e, ← e] at this
  exact this

/-- The conversion of a graph with any method: its bounds stay in intervals at most the spread of the formula wide. -/
theorem runPlan_held {X : Type} (D : PertDomain X (Idx [n]) ℝ) (stack : (Idx [n] → ℝ) → (Idx [n] → ℝ) → X) (k : Method) (fi fa : Option Bool)
    (eps : ℝ) (he : 0 < eps) (slope : Slope) (inp : Full X (Idx [n]) (Idx [n]) ℝ) (S : Set (Idx [n] → ℝ)) (hD : D.Sound inp.x S)
    (hA : Attains D inp.x S) (hst : isBackward k = true → k.mode = .ibp → Attains D (stack inp.lc inp.uc) S) (hi : ∀ p ∈ S, Valid k.mode false inp p p)
    (up lo w : Idx [n] → ℝ) (hp : ∀ p ∈ S, ∀ i, lo i ≤ p i ∧ p i ≤ up i) (hw : ∀ i, up i - lo i ≤ w i) (hh : Held k.mode S inp up lo)
    (hm : k.mode ≠ .ibp ∨ k.final fi fa = .ibp) (G : KGraph n) (order : List ℕ) (o M : ℕ) (hG : G.ReluFor k order o M)
    (N : (v : ℕ) → Net ℝ (Idx [n]) (Idx (G.sh v))) (hN : G.IsNet order N) (fuel : ℕ) (hf : order.length ≤ fuel + 1) (nameOf : ℕ → String) :
    ∃ r : Full X (Idx [n]) (Idx (G.sh o)) ℝ,
      G.runPlan D stack ⟨decide (k ≠ .crown), isBackward k, k.mode, k.final fi fa⟩ eps slope inp M (fuel + 1) order nameOf o =
        .ok ((r.toList (k.final fi fa)).map Ten.toB) ∧
      ∃ u l : Idx (G.sh o) → ℝ, (∀ c, u c - l c ≤ (N o).spread w c) ∧ Held (k.final fi fa) S r u l := by
  have hwf := net_wf G order hG.sorted N hN hG.layers o hG.out
  have hmul := net_noMultiply G order hG.sorted N hN (fun v hv => (hG.kinds v hv).2) o hG.out
  obtain ⟨p0, hp0, -⟩ := (hA 0 0).1
  have hul : ∀ i, lo i ≤ up i := fun i => (hp p0 hp0 i).1.trans (hp p0 hp0 i).2
  cases hk : isBackward k with
  | true =>
    obtain ⟨out, e1, e2⟩ := C141_backward ⟨D, stack, k.mode, eps, slope, decide (k ≠ .crown), inp⟩ (k.final fi fa) hm G M fuel order hG.sorted hf
      nameOf o hG.out hG.depth hG.used (hG.chain hk) N hN
    obtain ⟨out', e3, u, l, h1, h2⟩ := model_held ⟨D, stack, k.mode, eps, slope, decide (k ≠ .crown), inp⟩ he S hA hD (hst hk) hi up lo w hp hw hh (N o)
      (net_chain G order hG.sorted N hN (hG.chain hk) o hG.out) hwf
    rw [e1] at e3
    obtain rfl := Except.ok.inj e3
    have hx : out.x = inp.x := by
      simp only [CrownCfg.model] at e1
      cases h1 : (CrownCfg.node (⟨D, stack, k.mode, eps, slope, decide (k ≠ .crown), inp⟩ : CrownCfg X (Idx [n]) ℝ) (N o)).first with
      | error e => rw [h1] at e1; cases e1
      | ok b => rw [h1] at e1; obtain rfl := Except.ok.inj e1; exact crown_x D stack k.mode inp b
    exact ⟨_, by simp only [KGraph.runPlan, if_true]; exact e2, u, l, h1, held_convert2Mode D k.mode _ hm out S (by rw [hx]; exact hA) u l h2⟩
  | false =>
    have e := C141_forward D k.mode (k.final fi fa) hm eps slope inp G M fuel order hG.sorted nameOf o hG.out hG.depth hG.used N hN
    have key : ∃ u l : Idx (G.sh o) → ℝ, (∀ c, u c - l c ≤ (N o).spread w c) ∧ Held k.mode S ((N o).forward D k.mode eps slope inp) u l := by
      by_cases ha : getAffine k.mode = true
      · obtain ⟨u, l, -, h2, h3⟩ := net_held D ha eps he slope inp hA up lo w hul hw hh (N o) hwf hmul
        exact ⟨u, l, h2, h3⟩
      · have hib : k.mode = .ibp := by cases h : k.mode <;> simp_all [getAffine]
        rw [hib] at hh ⊢
        refine ⟨_, _, fun c => ibp_width D eps slope inp w (fun i => (sub_nonneg.2 (hul i)).trans (hw i)) (fun i => ?_) (N o) hwf hmul c,
          fun _ c => ⟨le_rfl, le_rfl⟩, fun h => absurd h (by decide)⟩
        have := hh.const rfl i
        have := hw i
        linarith
    obtain ⟨u, l, h2, h3⟩ := key
    exact ⟨_, by simp only [KGraph.runPlan, Bool.false_eq_true, if_false, e]; rfl, u, l, h2,
      held_convert2Mode D k.mode _ hm _ S (by rw [Net.forward_x]; exact hA) u l h3⟩

end

section
variable {n : ℕ} (G : KGraph n) (order : List ℕ) (o M : ℕ)

/-- How much wider than the input region the bounds of an output can be, from the weights of the layers (`Net.spread`): the same for every method,
slope, box and input. -/
noncomputable def outputSpread {G : KGraph n} {o : ℕ} (N : (v : ℕ) → Net ℝ (Idx [n]) (Idx (G.sh v))) (c : Fin (G.sh o).prod) : ℝ :=
  (N o).spread (fun _ => 1) ((ravel (G.sh o)).symm c)

theorem held_rangeBox {X κ : Type} {m : Mode} {b : BoxOf (Fin n) ℝ} {f : Full X (Fin n) κ ℝ} {u l : κ → ℝ} (h : Held m (Box b.1 b.2) f u l)
    (hb : ∀ i, b.1 i ≤ b.2 i) (c : κ) : l c ≤ rangeLower m b f c ∧ rangeUpper m b f c ≤ u c := by
  have h' : Held m (Box b.1 b.2) (⟨b, f.uc, f.wu, f.bu, f.lc, f.wl, f.bl, f.h, f.g⟩ : Full (BoxOf (Fin n) ℝ) (Fin n) κ ℝ) u l := ⟨h.const, h.aff⟩
  exact held_range h' hb c

/-- C145: with every method and over every box, the bounds that the caller of `clone` unpacks stay in intervals whose widths are known beforehand. -/
theorem clone_held (k : Method) (hG : G.ReluFor k order o M) (N : (v : ℕ) → Net ℝ (Idx [n]) (Idx (G.sh v))) (hN : G.IsNet order N)
    (fi fa : Option Bool) (hm : k.mode ≠ .ibp ∨ k.final fi fa = .ibp) (eps : ℝ) (he : 0 < eps) (slope : Slope) (fuel : ℕ)
    (hf : order.length ≤ fuel + 1) (nameOf : ℕ → String) (b : BoxOf (Fin n) ℝ) (hb : ∀ i, b.1 i ≤ b.2 i) (W : ℝ) (hW : ∀ i, b.2 i - b.1 i ≤ W)
    (f : Full (BoxOf (Idx [n]) ℝ) (Fin n) (Fin (G.sh o).prod) ℝ)
    (e : G.cloneOnBox k.value fi fa eps slope M (fuel + 1) order nameOf o b = .ok f) :
    ∃ u l : Fin (G.sh o).prod → ℝ, (∀ c, u c - l c ≤ outputSpread N c * W) ∧ Held (k.final fi fa) (Box b.1 b.2) f u l := by
  obtain ⟨r, e', u, l, h1, h2⟩ := runPlan_held boxDomain Prod.mk k fi fa eps he slope
      (inputTensorsBox k.mode (fun i => b.1 ((oneAxis n).symm i)) (fun i => b.2 ((oneAxis n).symm i)))
      (Box (fun i => b.1 ((oneAxis n).symm i)) (fun i => b.2 ((oneAxis n).symm i))) (boxDomain_sound _ _) (box_attains _ _ fun i => hb _)
      (fun _ h => by rw [h]; exact box_attains _ _ fun i => hb _) (fun p hp => C27_input_box k.mode _ _ p hp)
      (fun i => b.2 ((oneAxis n).symm i)) (fun i => b.1 ((oneAxis n).symm i)) (fun _ => W) (fun p hp => hp) (fun i => hW _) (box_held k.mode _ _)
      hm G order o M hG N hN fuel hf nameOf
  have e2 : G.cloneOnBox k.value fi fa eps slope M (fuel + 1) order nameOf o b =
      .ok (r.carried (k.final fi fa) (fun i => b.1 ((oneAxis n).symm i), fun i => b.2 ((oneAxis n).symm i))).flat := by
    simp only [KGraph.cloneOnBox, clonePlan_value, Except.bind, e', mapM_toB]; exact wrapperOutput_toList _ _ _
  rw [e] at e2
  rw [Except.ok.inj e2]
  have := flat_held (carried_held (x0 := ((fun i => b.1 ((oneAxis n).symm i), fun i => b.2 ((oneAxis n).symm i)) : BoxOf (Idx [n]) ℝ)) h2)
  refine ⟨_, _, fun c => ?_, this.const, fun ha p hp c => this.aff ha p (fun i => hp _) c⟩
  rw [outputSpread, ← Net.spread_const]
  exact h1 _

end

section
variable {n : ℕ} (G : KGraph (n + 1)) (order : List ℕ) (o M : ℕ)

/-- C145: `get_range_box` on `clone(model, method)`, without sub-boxes: the two bounds of an output are at most its spread times the width of the box
apart. -/
theorem C145_width (k : Method) (hG : G.ReluFor k order o M) (N : (v : ℕ) → Net ℝ (Idx [n + 1]) (Idx (G.sh v))) (hN : G.IsNet order N)
    (fi fa : Option Bool) (hm : k.mode ≠ .ibp ∨ k.final fi fa = .ibp) (eps : ℝ) (he : 0 < eps) (slope : Slope) (fuel : ℕ)
    (hf : order.length ≤ fuel + 1) (nameOf : ℕ → String) (batch nSub : ℕ) (hn : nSub ≤ 1)
    (bs : List (BoxOf (Fin (n + 1)) ℝ)) (hb : ∀ b ∈ bs, ∀ i, b.1 i ≤ b.2 i) :
    ∃ net us ls, (∀ b, G.cloneOnBox k.value fi fa eps slope M (fuel + 1) order nameOf o b = .ok (net b)) ∧
      getRangeBox net (k.final fi fa) batch nSub bs = .ok (us, ls) ∧
      ∀ i b, bs[i]? = some b → ∀ W, (∀ j, b.2 j - b.1 j ≤ W) → ∀ c : Fin (G.sh o).prod, ∃ u l, us[i * (G.sh o).prod + c]? = some u ∧
        ls[i * (G.sh o).prod + c]? = some l ∧ u - l ≤ outputSpread N c * W := by
  obtain ⟨net, h1, -⟩ := C142_onBox G order o M k hG N hN fi fa hm eps he slope fuel hf nameOf
  have e : subBoxes nSub bs = (bs, 1) := by unfold subBoxes; rw [if_neg (by omega)]
  refine ⟨net, _, _, h1, by rw [getRangeBox_eq net _ batch nSub bs hb, e]; simp only [lt_irrefl, if_false]; rfl, fun i b hi W hW c => ?_⟩
  refine ⟨_, _, flatRows_getElem? _ i _ (by rw [List.getElem?_map, hi]; rfl) c,
    flatRows_getElem? _ i _ (by rw [List.getElem?_map, hi]; rfl) c, ?_⟩
  have hb' := hb b (List.mem_of_getElem? hi)
  obtain ⟨u, l, g1, g2⟩ := clone_held G order o M k hG N hN fi fa hm eps he slope fuel hf nameOf b hb' W hW (net b) (h1 b)
  have := held_rangeBox g2 hb' c
  have := g1 c
  linarith

theorem range_near_of {X : Type} {d : ℕ} (hd : d = 1) (net : BoxOf (Fin (n + 1)) ℝ → Full X (Fin (n + 1)) (Fin d) ℝ) (m : Mode)
    (F : (Fin (n + 1) → ℝ) → Fin d → ℝ) (e w : Fin d → ℝ)
    (val : ∀ b : BoxOf (Fin (n + 1)) ℝ, ∀ p ∈ Box b.1 b.2, ∀ c, rangeLower m b (net b) c - e c ≤ F p c ∧ F p c ≤ rangeUpper m b (net b) c + e c)
    (bs : List (BoxOf (Fin (n + 1)) ℝ)) (hb : ∀ b ∈ bs, ∀ i, b.1 i ≤ b.2 i) (nSub : ℕ)
    (hK : ∀ b ∈ bs, ∀ b' ∈ refineBoxes true nSub b, ∀ c, rangeUpper m b' (net b') c - rangeLower m b' (net b') c ≤ w c) (batch : ℕ) :
    ∃ us ls, getRangeBox net m batch nSub bs = .ok (us, ls) ∧ us.length = bs.length ∧ ls.length = bs.length ∧
      ∀ (i : ℕ) (b : BoxOf (Fin (n + 1)) ℝ), bs[i]? = some b → ∃ u l, us[i]? = some u ∧ ls[i]? = some l ∧ ∀ c,
        (∀ p ∈ Box b.1 b.2, l - e c ≤ F p c ∧ F p c ≤ u + e c) ∧ (∃ p ∈ Box b.1 b.2, u ≤ F p c + (w c + e c)) ∧
        ∃ p ∈ Box b.1 b.2, F p c - (w c + e c) ≤ l := by
  subst hd
  obtain ⟨us, ls, h1, h2, h3, h4⟩ := range_near net m (fun p => F p 0) (e 0) (w 0) (fun b p hp => val b p hp 0) bs hb nSub
    (fun b hb b' hb' => hK b hb b' hb' 0) batch
  refine ⟨us, ls, h1, h2, h3, fun i b hi => ?_⟩
  obtain ⟨u, l, g1, g2, g3⟩ := h4 i b hi
  exact ⟨u, l, g1, g2, fun k => by rw [Fin.fin_one_eq_zero k]; exact g3⟩

/-- C145: with one output and `2 ^ (j * number of inputs)` sub-boxes, both bounds of `get_range_box` are within `spread * W / 2 ^ j + eps * gain` of a
value that the Keras model takes, over boxes of widths at most `W`, for every method. -/
theorem C145_range (hd : (G.sh o).prod = 1) (k : Method) (hG : G.ReluFor k order o M) (N : (v : ℕ) → Net ℝ (Idx [n + 1]) (Idx (G.sh v)))
    (hN : G.IsNet order N) (fi fa : Option Bool) (hm : k.mode ≠ .ibp ∨ k.final fi fa = .ibp) (eps : ℝ) (he : 0 < eps) (slope : Slope) (fuel : ℕ)
    (hf : order.length ≤ fuel + 1) (nameOf : ℕ → String) (batch nSub j : ℕ) (hn : 2 ^ (j * (n + 1)) ≤ nSub)
    (bs : List (BoxOf (Fin (n + 1)) ℝ)) (hb : ∀ b ∈ bs, ∀ i, b.1 i ≤ b.2 i) (W : ℝ) (hW : ∀ b ∈ bs, ∀ i, b.2 i - b.1 i ≤ W) :
    ∃ net us ls, (∀ b, G.cloneOnBox k.value fi fa eps slope M (fuel + 1) order nameOf o b = .ok (net b)) ∧
      getRangeBox net (k.final fi fa) batch nSub bs = .ok (us, ls) ∧ us.length = bs.length ∧ ls.length = bs.length ∧
      ∀ (i : ℕ) (b : BoxOf (Fin (n + 1)) ℝ), bs[i]? = some b → ∃ u l, us[i]? = some u ∧ ls[i]? = some l ∧ ∀ c,
        (∀ p ∈ Box b.1 b.2, ∀ y, G.IsOutput order o p y → l - eps * outputGain N c ≤ y c ∧ y c ≤ u + eps * outputGain N c) ∧
        (∃ p ∈ Box b.1 b.2, ∃ y, G.IsOutput order o p y ∧ u ≤ y c + (outputSpread N c * (W / 2 ^ j) + eps * outputGain N c)) ∧
        ∃ p ∈ Box b.1 b.2, ∃ y, G.IsOutput order o p y ∧ y c - (outputSpread N c * (W / 2 ^ j) + eps * outputGain N c) ≤ l := by
  obtain ⟨net, h1, h2⟩ := C142_onBox G order o M k hG N hN fi fa hm eps he slope fuel hf nameOf
  choose F hF hu using C132_output G order o M hG.toReady
  obtain ⟨us, ls, g1, g2, g3, g4⟩ := range_near_of hd net (k.final fi fa) F (fun c => eps * outputGain N c) (fun c => outputSpread N c * (W / 2 ^ j))
    (fun b p hp c => range_slack _ b (net b) p hp _ _ (h2 b p hp _ (hF p)) c) bs hb nSub (fun b hb1 b' hb2 c => by
      have hb' := ((covers_refine nSub b).good (hb b hb1) b' hb2).1
      obtain ⟨u, l, q1, q2⟩ := clone_held G order o M k hG N hN fi fa hm eps he slope fuel hf nameOf b' hb' (W / 2 ^ j)
        (C35_widths j nSub hn b (hb b hb1) W (hW b hb1) b' hb2) (net b') (h1 b')
      have := held_rangeBox q2 hb' c
      have := q1 c
      linarith) batch
  refine ⟨net, us, ls, h1, g1, g2, g3, fun i b hi => ?_⟩
  obtain ⟨u, l, e1, e2, e3⟩ := g4 i b hi
  refine ⟨u, l, e1, e2, fun c => ?_⟩
  obtain ⟨a, ⟨p, hp, hpu⟩, q, hq, hql⟩ := e3 c
  refine ⟨fun x hx y hy => ?_, ⟨p, hp, F p, hF p, hpu⟩, q, hq, F q, hF q, hql⟩
  rw [hu x y hy]
  exact a x hx

/-- C145: with `2 ^ (j * number of inputs)` sub-boxes, every score of `get_adv_box` is an upper bound of the differences (target minus source) up to
`eps * gain`, and the Keras model reaches it up to `spread * W / 2 ^ j + eps * gain` for each of the two labels, with every method. -/
theorem C145_score [Nonempty (Fin (G.sh o).prod)] (k : Method) (hG : G.ReluFor k order o M) (N : (v : ℕ) → Net ℝ (Idx [n + 1]) (Idx (G.sh v)))
    (hN : G.IsNet order N) (fi fa : Option Bool) (hm : k.mode ≠ .ibp ∨ k.final fi fa = .ibp) (eps : ℝ) (he : 0 < eps) (slope : Slope) (fuel : ℕ)
    (hf : order.length ≤ fuel + 1) (nameOf : ℕ → String) (batch nSub j : ℕ) (hn : 2 ^ (j * (n + 1)) ≤ nSub)
    (rows : List (AdvSample (Fin (n + 1)) (Fin (G.sh o).prod) ℝ)) (hb : ∀ r ∈ rows, ∀ i, r.box.1 i ≤ r.box.2 i)
    (hl : ∀ r ∈ rows, Labels r.src r.tgt) (W : ℝ) (hW : ∀ r ∈ rows, ∀ i, r.box.2 i - r.box.1 i ≤ W)
    (hs : (G.sh o).length = 1 ∨ k.final fi fa = .affine) :
    ∃ net scs, (∀ b, G.cloneOnBox k.value fi fa eps slope M (fuel + 1) order nameOf o b = .ok (net b)) ∧
      getAdvBoxOf (G.sh o) net (k.final fi fa) batch nSub rows = .ok scs ∧ scs.length = rows.length ∧
      ∀ (i : ℕ) (r : AdvSample (Fin (n + 1)) (Fin (G.sh o).prod) ℝ) (sc : ℝ), rows[i]? = some r → scs[i]? = some sc →
        (∀ p ∈ Box r.box.1 r.box.2, ∀ y, G.IsOutput order o p y → ∀ t s, r.tgt t = 1 → r.src s = 1 →
          y t - y s - eps * (outputGain N t + outputGain N s) ≤ sc) ∧
        ∃ p ∈ Box r.box.1 r.box.2, ∃ y, G.IsOutput order o p y ∧ ∃ t s, r.tgt t = 1 ∧ r.src s = 1 ∧
          sc ≤ y t - y s + (outputSpread N t + outputSpread N s) * (W / 2 ^ j) + eps * (outputGain N t + outputGain N s) := by
  obtain ⟨net, h1, h2⟩ := C142_onBox G order o M k hG N hN fi fa hm eps he slope fuel hf nameOf
  choose F hF hu using C132_output G order o M hG.toReady
  obtain ⟨scs, e, l⟩ := adv_margin net (k.final fi fa) (fun p t s => F p t - F p s - (eps * outputGain N t + eps * outputGain N s)) batch nSub rows hb
    fun b hb' p hp t s => pair_slack _ b (net b) p hp (F p) _ (h2 b p hp _ (hF p)) t s
  obtain ⟨scs', e', l'⟩ := adv_reached net (k.final fi fa) F (fun c => eps * outputGain N c) (fun c => outputSpread N c * (W / 2 ^ j))
    (fun b p hp => h2 b p hp _ (hF p)) batch nSub rows hb hl fun r hr c hc =>
      clone_held G order o M k hG N hN fi fa hm eps he slope fuel hf nameOf c ((covers_refine nSub r.box).good (hb r hr) c hc).1 _
        (C35_widths j nSub hn r.box (hb r hr) W (hW r hr) c hc) (net c) (h1 c)
  obtain rfl : scs = scs' := Except.ok.inj (e.symm.trans e')
  refine ⟨net, scs, h1, by rw [C132_adv_shape _ net _ hs, e], l.length_eq.symm, fun i r sc hr hsc => ?_⟩
  obtain ⟨i1, rfl⟩ := List.getElem?_eq_some_iff.1 hr
  obtain ⟨i2, rfl⟩ := List.getElem?_eq_some_iff.1 hsc
  rw [List.forall₂_iff_get] at l l'
  refine ⟨fun p hp y hy t s ht hss => ?_, ?_⟩
  · have := l.2 i i1 i2 p hp t s ht hss
    simp only [List.get_eq_getElem] at this
    rw [hu p y hy]
    linarith
  · obtain ⟨p, hp, t, s, ht, hs', hle⟩ := l'.2 i i1 i2
    simp only [List.get_eq_getElem] at hle
    refine ⟨p, hp, F p, hF p, t, s, ht, hs', hle.trans (le_of_eq ?_)⟩
    ring

/-- C145: the number of sub-boxes with which `get_adv_box` certifies a sample: if every source beats every target by more than
`(spread t + spread s) * W / 2 ^ j + eps * (gain t + gain s)` over the box, `2 ^ (j * number of inputs)` sub-boxes give a negative score, with every
method. -/
theorem C145_adv_complete [Nonempty (Fin (G.sh o).prod)] (k : Method) (hG : G.ReluFor k order o M) (N : (v : ℕ) → Net ℝ (Idx [n + 1]) (Idx (G.sh v)))
    (hN : G.IsNet order N) (fi fa : Option Bool) (hm : k.mode ≠ .ibp ∨ k.final fi fa = .ibp) (eps : ℝ) (he : 0 < eps) (slope : Slope) (fuel : ℕ)
    (hf : order.length ≤ fuel + 1) (nameOf : ℕ → String) (batch nSub j : ℕ) (hn : 2 ^ (j * (n + 1)) ≤ nSub)
    (rows : List (AdvSample (Fin (n + 1)) (Fin (G.sh o).prod) ℝ)) (hb : ∀ r ∈ rows, ∀ i, r.box.1 i ≤ r.box.2 i)
    (hl : ∀ r ∈ rows, Labels r.src r.tgt) (W : ℝ) (hW : ∀ r ∈ rows, ∀ i, r.box.2 i - r.box.1 i ≤ W)
    (hs : (G.sh o).length = 1 ∨ k.final fi fa = .affine)
    (hrob : ∀ r ∈ rows, ∀ p ∈ Box r.box.1 r.box.2, ∀ y, G.IsOutput order o p y → ∀ t s, r.tgt t = 1 → r.src s = 1 →
      y t + ((outputSpread N t + outputSpread N s) * (W / 2 ^ j) + eps * (outputGain N t + outputGain N s)) < y s) :
    ∃ net scs, (∀ b, G.cloneOnBox k.value fi fa eps slope M (fuel + 1) order nameOf o b = .ok (net b)) ∧
      getAdvBoxOf (G.sh o) net (k.final fi fa) batch nSub rows = .ok scs ∧ scs.length = rows.length ∧ ∀ sc ∈ scs, sc < 0 := by
  obtain ⟨net, scs, h1, h2, h3, h4⟩ := C145_score G order o M k hG N hN fi fa hm eps he slope fuel hf nameOf batch nSub j hn rows hb hl W hW hs
  refine ⟨net, scs, h1, h2, h3, fun sc hsc => ?_⟩
  obtain ⟨i, hi, rfl⟩ := List.mem_iff_getElem.1 hsc
  obtain ⟨-, p, hp, y, hy, t, s, ht, hs', hle⟩ := h4 i _ _ (List.getElem?_eq_getElem (h3 ▸ hi)) (List.getElem?_eq_getElem hi)
  have := hrob _ (List.getElem_mem _) p hp y hy t s ht hs'
  linarith

/-- C145: `get_range_noise` on `clone(model, method, perturbation_domain=BallDomain(eps, p))`: the two bounds are at most `2 * eps` times the spread
apart, for the methods in affine and hybrid mode. -/
theorem C145_noise (k : Method) (hG : G.ReluFor k order o M) (N : (v : ℕ) → Net ℝ (Idx [n + 1]) (Idx (G.sh v))) (hN : G.IsNet order N)
    (fi fa : Option Bool) (hk : k.mode ≠ .ibp) (leps : ℝ) (hl : 0 < leps)
    (slope : Slope) (eps : ℝ) (he : 0 ≤ eps) (q : PVal) (hq : q = .inf ∨ q = .fin 1 ∨ q = .fin 2)
    (stack : (Idx [n + 1] → ℝ) → (Idx [n + 1] → ℝ) → Idx [n + 1] → ℝ) (fuel : ℕ) (hf : order.length ≤ fuel + 1) (nameOf : ℕ → String)
    (x : Fin (n + 1) → ℝ) :
    ∃ net, G.cloneOnBall k.value fi fa leps slope eps q stack M (fuel + 1) order nameOf o x = .ok net ∧
      ∀ c, ∃ u l, noiseUpper (k.final fi fa) eps q x net c = .ok u ∧ noiseLower (k.final fi fa) eps q x net c = .ok l ∧
        u - l ≤ outputSpread N c * (2 * eps) := by
  haveI : Nonempty (Idx [n + 1]) := ⟨oneAxis (n + 1) 0⟩
  obtain ⟨r, e, u, l, h1, h2⟩ := runPlan_held (ballDomain eps q) stack k fi fa leps hl slope
    (inputTensorsBall k.mode eps q fun i => x ((oneAxis (n + 1)).symm i)) (LpBall (fun i => x ((oneAxis (n + 1)).symm i)) eps q)
    (ball_input_sound k.mode eps q _) (ball_attains eps he q hq _) (fun _ h => absurd h hk)
    (fun p hp => C27_input_ball k.mode eps q _ p hp) (fun i => x ((oneAxis (n + 1)).symm i) + eps) (fun i => x ((oneAxis (n + 1)).symm i) - eps)
    (fun _ => 2 * eps) (fun p hp i => ball_coord eps q _ p hp i) (fun i => by linarith) (ball_held k.mode hk eps q _) (.inl hk) G order o M hG N hN fuel hf nameOf
  refine ⟨_, by simp only [KGraph.cloneOnBall, clonePlan_value, Except.bind, e, mapM_toB]; exact wrapperOutput_toList _ _ _, fun c => ?_⟩
  have H := flat_held (carried_held (x0 := fun i => x ((oneAxis (n + 1)).symm i)) h2)
  have H' : Held (k.final fi fa) (LpBall x eps q) (r.carried (k.final fi fa) fun i => x ((oneAxis (n + 1)).symm i)).flat
      (fun k => u ((ravel (G.sh o)).symm k)) (fun k => l ((ravel (G.sh o)).symm k)) := ⟨H.const, fun ha p hp c => H.aff ha p (lpBall_oneAxis hp) c⟩
  have w := h1 ((ravel (G.sh o)).symm c)
  rw [Net.spread_const] at w
  have t := noise_tighten (k.final fi fa) eps q hq x { (r.carried (k.final fi fa) fun i => x ((oneAxis (n + 1)).symm i)).flat with x := x } rfl c
  have b := Held.tighten (f := { (r.carried (k.final fi fa) fun i => x ((oneAxis (n + 1)).symm i)).flat with x := x }) ⟨H'.const, H'.aff⟩
    (ballDomain eps q) (ball_attains eps he q hq x) c
  refine ⟨_, _, t.1, t.2, ?_⟩
  change _ ≤ (N o).spread (fun _ => 1) _ * _
  linarith [b.1, b.2]

end

/-! ### Concrete graphs -/

theorem reluTwo_spread (c : Fin [2].prod) : outputSpread (G := reluTwoGraph) (o := 2) reluTwoNet c = 1 := by
  simp [outputSpread, reluTwoNet, Net.spread, Lay.spread]

/-- The value of that model. -/
theorem reluTwo_value (p : Fin 2 → ℝ) (y : Fin [2].prod → ℝ) (h : reluTwoGraph.IsOutput [0, 1, 2] 2 p y) :
    y ⟨0, by decide⟩ = max 0 (p 0) ∧ y ⟨1, by decide⟩ = max 0 (p 1) := by
  obtain ⟨z, hz, hy⟩ := h
  have e := C141_value reluTwoGraph [0, 1, 2] reluTwo_ok.1 reluTwoNet reluTwo_isNet _ z hz 2 (by simp)
  have key : ∀ i : Idx [2], z 2 i = max 0 (p ((oneAxis 2).symm i)) := fun i => by
    rw [e]
    simp [reluTwoNet, Net.eval, Lay.eval, max_comm]
  constructor
  · have r : ravel [2] (oneAxis 2 0) = ⟨0, by decide⟩ := by decide +kernel
    refine (congrArg y r.symm).trans ((hy (oneAxis 2 0)).trans ((key _).trans ?_))
    rw [Equiv.symm_apply_apply]
  · have r : ravel [2] (oneAxis 2 1) = ⟨1, by decide⟩ := by decide +kernel
    refine (congrArg y r.symm).trans ((hy (oneAxis 2 1)).trans ((key _).trans ?_))
    rw [Equiv.symm_apply_apply]

/-- Over `[2, 3] × [-1, 1]` the ReLU of the first entry beats that of the second one by at least one: sixty-four sub-boxes give a negative score,
with each of the seven methods. -/
example (k : Method) : ∃ net scs,
    (∀ b, reluTwoGraph.cloneOnBox k.value none none (1 / 10000000) .vSlope 2 4 [0, 1, 2] (fun v => toString v) 2 b = .ok (net b)) ∧
    getAdvBoxOf [2] net k.mode 1 64 [⟨(![2, -1], ![3, 1]), ![1, 0], ![0, 1]⟩] = .ok scs ∧ scs.length = 1 ∧ ∀ sc ∈ scs, sc < 0 := by
  have hl : Labels (![1, 0] : Fin 2 → ℝ) ![0, 1] := ⟨fun k => by fin_cases k <;> simp, fun k => by fin_cases k <;> simp, ⟨1, rfl⟩, 0, rfl⟩
  obtain ⟨net, scs, h1, h2, h3, h4⟩ := @C145_adv_complete 1 reluTwoGraph [0, 1, 2] 2 2 ⟨⟨0, by decide⟩⟩ k (reluTwo_reluFor k) reluTwoNet reluTwo_isNet
    none none (by cases k <;> decide) (1 / 10000000) (by norm_num)
    .vSlope 3 (by simp) (fun v => toString v) 1 64 3 (by norm_num) [⟨(![2, -1], ![3, 1]), ![1, 0], ![0, 1]⟩] (by
      intro r hr
      obtain rfl := List.mem_singleton.1 hr
      intro i
      fin_cases i <;> norm_num) (by intro r hr; obtain rfl := List.mem_singleton.1 hr; exact hl) 2 (by
      intro r hr
      obtain rfl := List.mem_singleton.1 hr
      intro i
      fin_cases i <;> norm_num) (.inl rfl) (by
      intro r hr
      obtain rfl := List.mem_singleton.1 hr
      intro p hp y hy t s ht hs
      obtain ⟨v0, v1⟩ := reluTwo_value p y hy
      have et : t = ⟨1, by decide⟩ := by
        match t, ht with
        | ⟨1, _⟩, _ => rfl
        | ⟨0, _⟩, h => exact absurd h (by change ¬ ((0 : ℝ) = 1); norm_num)
      have es : s = ⟨0, by decide⟩ := by
        match s, hs with
        | ⟨0, _⟩, _ => rfl
        | ⟨1, _⟩, h => exact absurd h (by change ¬ ((0 : ℝ) = 1); norm_num)
      have k1 : ∀ c, outputSpread (G := reluTwoGraph) (o := 2) reluTwoNet c = 1 := reluTwo_spread
      have k2 : ∀ c, outputGain (G := reluTwoGraph) (o := 2) reluTwoNet c = 1 / 4 := reluTwo_gain
      rw [k1 t, k1 s, k2 t, k2 s, et, es]
      have h0 : (2 : ℝ) ≤ p 0 := (hp 0).1
      have h1 : p 1 ≤ (1 : ℝ) := (hp 1).2
      have a0 : (2 : ℝ) ≤ y ⟨0, by decide⟩ := v0 ▸ h0.trans (le_max_right _ _)
      have a1 : y ⟨1, by decide⟩ ≤ (1 : ℝ) := v1 ▸ max_le zero_le_one h1
      refine lt_of_lt_of_le (b := 1 + 9 / 10) ?_ (by linarith)
      linarith)
  exact ⟨net, scs, h1, h2, h3, h4⟩

theorem reluPlus_spread (c : Fin [1].prod) : outputSpread (G := reluPlusGraph) (o := 2) reluPlusNet c = 2 := by
  simp [outputSpread, reluPlusNet, Net.spread, Lay.spread, MergeOp.spread]
  norm_num

/-- `relu(x) + x` over `[-3, 5]` with thirty-two sub-boxes and a method `forward-*`: the upper bound is within a half of a value of the model, up to
epsilon. -/
example (k : Method) (hk : isBackward k = false) : ∃ net us ls,
    (∀ b, reluPlusGraph.cloneOnBox k.value none none (1 / 10000000) .vSlope 2 4 [0, 1, 2] (fun v => toString v) 2 b = .ok (net b)) ∧
    getRangeBox net k.mode 1 32 [(fun _ => -3, fun _ => 5)] = .ok (us, ls) ∧ us.length = 1 ∧
    ∃ u, us[0]? = some u ∧ ∃ p ∈ Box (fun _ : Fin 1 => (-3 : ℝ)) (fun _ => 5), ∃ y, reluPlusGraph.IsOutput [0, 1, 2] 2 p y ∧
      u ≤ y (⟨0, by decide⟩ : Fin [1].prod) +
        (1 / 2 + 1 / 10000000 * outputGain (G := reluPlusGraph) (o := 2) reluPlusNet (⟨0, by decide⟩ : Fin [1].prod)) := by
  obtain ⟨net, us, ls, h1, h2, h3, -, h4⟩ := @C145_range 0 reluPlusGraph [0, 1, 2] 2 2 rfl k (reluPlus_reluFor k hk) reluPlusNet reluPlus_isNet none none
    (by cases k <;> decide) (1 / 10000000) (by norm_num) .vSlope 3 (by simp) (fun v => toString v) 1 32 5 (by norm_num) [(fun _ => -3, fun _ => 5)]
    (by intro b hb; obtain rfl := List.mem_singleton.1 hb; intro i; norm_num) 8
    (by intro b hb; obtain rfl := List.mem_singleton.1 hb; intro i; norm_num)
  obtain ⟨u, l, g1, -, g2⟩ := h4 0 _ rfl
  obtain ⟨-, ⟨p, hp, y, hy, hu⟩, -⟩ := g2 ⟨0, by decide⟩
  refine ⟨net, us, ls, h1, h2, h3, u, g1, p, hp, y, hy, hu.trans (le_of_eq ?_)⟩
  have k1 : ∀ c, outputSpread (G := reluPlusGraph) (o := 2) reluPlusNet c = 2 := reluPlus_spread
  rw [k1, show (2 : ℝ) * (8 / 2 ^ 5) = 1 / 2 by norm_num]
  rfl

end Decomon
