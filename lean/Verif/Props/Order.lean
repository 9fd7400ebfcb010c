import Verif.Lemmas.Order
import Verif.Props.Network
import Verif.Model.Wrapper

/-!
C124: the backward bounds computed with the bounds of a forward pass (`crown-forward-affine`, `crown-forward-hybrid`) compared with the
affine bounds of that forward pass.
-/

namespace Decomon

section General
variable {X ι κ ν α : Type} [Fintype ι] [DecidableEq ι] [Field α] [LinearOrder α] [IsStrictOrderedRing α]

/-- C124: in affine and hybrid mode, for every perturbation domain, slope and chain of layers, the affine bounds of the backward pass that
starts from the bounds of a forward pass lie between the affine bounds of the forward pass, at every point of the domain.
Missing with respect to the full claim: method `crown` (no forward pass), different finetuning in the two passes, and neurons in the sliver of
the ReLU hull, refuted below. -/
theorem C124_inside_partial (C : CrownCfg X ι α) (hm : getAffine C.m = true) (he : 0 < C.eps) (hu : C.useForward = true) (S : Set (ι → α))
    (hS : C.D.Sound C.inp.x S) (hi : ∀ p ∈ S, Valid C.m false C.inp p p) (n : Net α ι κ) (hc : n.Chain) (hw : n.WF) (hg : n.SameAlpha)
    (hs : n.SliverOK C.D C.m C.eps C.slope C.inp) :
    ∃ out, C.model n = .ok out ∧ InsideOn S out (n.forward C.D C.m C.eps C.slope C.inp) := by
  suffices h : ∃ r, (C.node n).first = .ok r ∧ ∀ p ∈ S, ∀ k, r.evalU p k ≤ (n.forward C.D C.m C.eps C.slope C.inp).toBack.evalU p k ∧
      (n.forward C.D C.m C.eps C.slope C.inp).toBack.evalL p k ≤ r.evalL p k by
    obtain ⟨r, h1, h2⟩ := h
    refine ⟨_, by rw [CrownCfg.model, h1]; rfl, fun p hp k => ?_⟩
    simp only [convert2BackwardMode, hm, if_true]
    exact ⟨(h2 p hp k).2, (h2 p hp k).1⟩
  cases n with
  | input =>
    refine ⟨_, rfl, fun p hp k => ?_⟩
    rw [fuse, if_pos hm, merge_identity_right]
    exact ⟨le_rfl, le_rfl⟩
  | layer n l =>
    obtain ⟨r, h1, h2⟩ := node_inside C hm he hu S hS hi n hc hw.1 hg.1 hs.1 _ _
      (l.backward C.D C.m C.eps C.slope (n.forward C.D C.m C.eps C.slope C.inp))
    refine ⟨r, ?_, fun p hp k => ?_⟩
    · simp only [CrownCfg.node, CrownCfg.childInput, if_pos hu]
      exact h1
    · have hv := Net.forward_valid C.D C.m C.eps he C.slope C.inp S hS p hp (hi p hp) n hw.1 hs.1
      have hL := layer_inside C.D C.m hm C.eps he C.slope l hw.2 hg.2 _ S (by rw [Net.forward_x]; exact hS) p hp _ hv k
      exact ⟨(h2 p hp k).1.trans hL.1, hL.2.trans (h2 p hp k).2⟩
  | merge op n0 n1 => exact hc.elim

/-- C124: the same with `back_bounds = [M]`: the result is at least as tight as the forward bounds of the model with a last `Dense` layer of
kernel `M`.  Missing: as for `C124_inside_partial`. -/
theorem C124_back_bounds_partial [Fintype κ] [DecidableEq κ] [Fintype ν] (C : CrownCfg X ι α) (hm : getAffine C.m = true) (he : 0 < C.eps)
    (hu : C.useForward = true) (S : Set (ι → α)) (hS : C.D.Sound C.inp.x S) (hi : ∀ p ∈ S, Valid C.m false C.inp p p) (n : Net α ι κ)
    (hc : n.Chain) (hw : n.WF) (hg : n.SameAlpha) (hs : n.SliverOK C.D C.m C.eps C.slope C.inp) (M : κ → ν → α) :
    ∃ out, C.modelBack n M = .ok out ∧
      InsideOn S out ((Net.layer n (.dense M fun _ => 0)).forward C.D C.m C.eps C.slope C.inp) := by
  obtain ⟨r, h1, h2⟩ := node_inside C hm he hu S hS hi n hc hw hg hs _ ν ⟨M, fun _ => 0, M, fun _ => 0⟩
  refine ⟨_, by rw [CrownCfg.modelBack, h1]; rfl, fun p hp k => ?_⟩
  simp only [convert2BackwardMode, hm, if_true]
  have hv := Net.forward_valid C.D C.m C.eps he C.slope C.inp S hS p hp (hi p hp) n hw hs
  have hL := layer_inside C.D C.m hm C.eps he C.slope (.dense M fun _ => 0) trivial trivial _ S (by rw [Net.forward_x]; exact hS) p hp _ hv k
  exact ⟨hL.2.trans (h2 p hp k).2, (h2 p hp k).1.trans hL.1⟩

end General

section Box
variable {ι κ α : Type} [Fintype ι] [DecidableEq ι] [Field α] [LinearOrder α] [IsStrictOrderedRing α]

/-- C124 over a box: the ranges read off the affine bounds are at least as tight.  Missing: as for `C124_inside_partial`. -/
theorem C124_box_partial (m : Mode) (hm : getAffine m = true) (eps : α) (he : 0 < eps) (slope : Slope) (xmin xmax : ι → α)
    (hx : ∀ i, xmin i ≤ xmax i) (n : Net α ι κ) (hc : n.Chain) (hw : n.WF) (hg : n.SameAlpha)
    (hs : n.SliverOK boxDomain m eps slope (inputTensorsBox m xmin xmax)) :
    ∃ out, (boxCrown m eps slope true xmin xmax).model n = .ok out ∧
      InsideOn (Box xmin xmax) out (n.forward boxDomain m eps slope (inputTensorsBox m xmin xmax)) ∧
      ∀ k, rangeLower .affine (xmin, xmax) (n.forward boxDomain m eps slope (inputTensorsBox m xmin xmax)) k ≤
          rangeLower .affine (xmin, xmax) out k ∧
        rangeUpper .affine (xmin, xmax) out k ≤
          rangeUpper .affine (xmin, xmax) (n.forward boxDomain m eps slope (inputTensorsBox m xmin xmax)) k := by
  obtain ⟨out, h1, h2⟩ := C124_inside_partial (boxCrown m eps slope true xmin xmax) hm he rfl (Box xmin xmax) (boxDomain_sound xmin xmax)
    (fun p hp => C27_input_box m xmin xmax p hp) n hc hw hg hs
  refine ⟨out, h1, h2, fun k => ⟨?_, ?_⟩⟩
  · obtain ⟨-, ⟨p, hp, -, e⟩⟩ := (C01_box_sound_and_exact xmin xmax (fun i => out.wl i k) (out.bl k)).2 hx
    change _ ≤ (boxDomain : PertDomain _ ι α).getLower (xmin, xmax) _ _
    rw [← e]
    exact ((boxDomain_sound xmin xmax p hp _ _).1).trans (h2 p hp k).1
  · obtain ⟨⟨p, hp, -, e⟩, -⟩ := (C01_box_sound_and_exact xmin xmax (fun i => out.wu i k) (out.bu k)).2 hx
    change (boxDomain : PertDomain _ ι α).getUpper (xmin, xmax) _ _ ≤ _
    rw [← e]
    exact (h2 p hp k).2.trans (boxDomain_sound xmin xmax p hp _ _).2

end Box

section One
variable {ι κ α : Type} [Fintype ι] [DecidableEq ι] [Field α] [LinearOrder α] [IsStrictOrderedRing α]

omit [Fintype ι] [DecidableEq ι] [IsStrictOrderedRing α] in
theorem Lay.Plain.noRelu {κ κ' : Type} {l : Lay α κ κ'} (h : l.Plain) : l.NoRelu := by cases l <;> first | trivial | exact h.elim

omit [Fintype ι] [DecidableEq ι] [IsStrictOrderedRing α] in
theorem Net.PlainChain.linear {κ : Type} (n : Net α ι κ) (h : n.PlainChain) : n.Linear := by
  induction n with
  | input => trivial
  | layer n l ih => exact ⟨ih h.1, by cases l <;> first | trivial | exact h.2.elim⟩
  | merge op n0 n1 => exact h.elim

omit [Fintype ι] [DecidableEq ι] [IsStrictOrderedRing α] in
theorem Net.PlainChain.wf {κ : Type} (n : Net α ι κ) (h : n.PlainChain) : n.WF := by
  induction n with
  | input => trivial
  | layer n l ih => exact ⟨ih h.1, by cases l <;> first | trivial | exact h.2 | exact h.2.elim⟩
  | merge op n0 n1 => exact h.elim

/-- The affine bounds of a chain without activation do not depend on the domain. -/
theorem plainChain_toBack (eps : α) (s : Slope) (xmin xmax p : ι → α) {κ : Type} (n : Net α ι κ) (h : n.PlainChain) :
    (n.forward boxDomain .affine eps s (inputTensorsBox .affine xmin xmax)).toBack =
      (n.forward boxDomain .affine eps s (inputTensorsBox .affine p p)).toBack ∧
    (n.forward boxDomain .affine eps s (inputTensorsBox .affine xmin xmax)).wu =
      (n.forward boxDomain .affine eps s (inputTensorsBox .affine xmin xmax)).wl ∧
    (n.forward boxDomain .affine eps s (inputTensorsBox .affine xmin xmax)).bu =
      (n.forward boxDomain .affine eps s (inputTensorsBox .affine xmin xmax)).bl := by
  induction n with
  | input => exact ⟨rfl, rfl, rfl⟩
  | layer n l ih =>
    obtain ⟨h1, h2, h3⟩ := ih h.1
    simp only [Full.toBack, Back.mk.injEq] at h1
    obtain ⟨a1, a2, a3, a4⟩ := h1
    cases l with
    | relu gf gb => exact h.2.elim
    | skip => exact ⟨by simp only [Net.forward, Lay.forward, Full.toBack, a1, a2, a3, a4], h2, h3⟩
    | dense K b =>
      simp only [Net.forward, Lay.forward, denseT, Full.toBack, tighten_wu, tighten_wl, tighten_bu, tighten_bl, a1, a2, a3, a4] at h2 h3 ⊢
      simp only [h2, h3, and_self]
    | linear L K b =>
      simp only [Net.forward, Lay.forward, linearLayerT, Full.toBack, tighten_wu, tighten_wl, tighten_bu, tighten_bl, a1, a2, a3, a4] at h2 h3 ⊢
      simp only [h2, h3, and_self]
    | batchNorm g b mu sd =>
      simp only [Net.forward, Lay.forward, batchNormT, Full.toBack, tighten_wu, tighten_wl, tighten_bu, tighten_bl, a1, a2, a3, a4] at h2 h3 ⊢
      simp only [h2, h3, and_self]
    | reshape e =>
      simp only [Net.forward, Lay.forward, reindexT, Full.toBack, tighten_wu, tighten_wl, tighten_bu, tighten_bl, a1, a2, a3, a4] at h2 h3 ⊢
      simp only [h2, h3, and_self]
  | merge op n0 n1 => exact h.elim

omit [Fintype ι] [DecidableEq ι] [IsStrictOrderedRing α] in
theorem Net.PlainChain.sliver {X κ : Type} (D : PertDomain X ι α) (m : Mode) (eps : α) (s : Slope) (inp : Full X ι ι α) (n : Net α ι κ)
    (h : n.PlainChain) : n.SliverOK D m eps s inp := by
  induction n with
  | input => trivial
  | layer n l ih => exact ⟨ih h.1, by cases l <;> first | trivial | exact h.2.elim⟩
  | merge op n0 n1 => exact h.elim

/-- The affine bounds of a chain without activation are exact. -/
theorem plainChain_exact (eps : α) (he : 0 < eps) (s : Slope) (xmin xmax : ι → α) {κ : Type} (n : Net α ι κ) (h : n.PlainChain) :
    (n.forward boxDomain .affine eps s (inputTensorsBox .affine xmin xmax)).toBack.Exact fun p => n.eval p := by
  have hh := plainChain_toBack eps s xmin xmax
  refine ⟨(hh 0 n h).2.1, (hh 0 n h).2.2, fun p k => ?_⟩
  have hv := (C27_box_partial .affine eps he s p p n (h.wf n) (h.sliver _ _ _ _ _ n) p fun i => ⟨le_rfl, le_rfl⟩).aff rfl k
  obtain ⟨-, e1, e2⟩ := plainChain_toBack eps s p p p n h
  rw [(hh p n h).1]
  refine le_antisymm ?_ hv.2
  rw [← e1, ← e2] at hv
  exact hv.1

/-- Without activation, or above the first activation, the backward pass is the same with and without a forward pass. -/
theorem oneRelu_node (eps : α) (he : 0 < eps) (s : Slope) (xmin xmax : ι → α) {κ : Type} (n : Net α ι κ) (h : n.OneRelu) :
    (boxCrown .affine eps s false xmin xmax).node n = (boxCrown .affine eps s true xmin xmax).node n := by
  have plain : ∀ {κ : Type} (n : Net α ι κ), n.PlainChain →
      (boxCrown .affine eps s false xmin xmax).node n = (boxCrown .affine eps s true xmin xmax).node n := by
    intro κ n
    induction n with
    | input => exact fun _ => rfl
    | layer n l ih =>
      intro h
      rw [node_plain _ n l h.2, node_plain _ n l h.2, ih h.1]
    | merge op n0 n1 => exact fun h => h.elim
  induction n with
  | input => rfl
  | layer n l ih =>
    rcases h with h | h
    · have hb := plain n h
      obtain ⟨⟨b, hb1, hb2⟩, -⟩ := node_exact .affine eps s false xmin xmax n (h.linear n)
      have hx := plainChain_exact eps he s xmin xmax n h
      have hu : b = (n.forward boxDomain .affine eps s (inputTensorsBox .affine xmin xmax)).toBack := by
        have hw : ∀ k, _ := fun k => affEval_inj (fun z => (hb2.2.2 z k).trans (hx.2.2 z k).symm)
        obtain ⟨e1, e2, -⟩ := hb2
        obtain ⟨e1', e2', -⟩ := hx
        have w1 : b.wu = (n.forward boxDomain .affine eps s (inputTensorsBox .affine xmin xmax)).toBack.wu := by
          funext i k; exact congrFun (hw k).1 i
        have w2 : b.bu = (n.forward boxDomain .affine eps s (inputTensorsBox .affine xmin xmax)).toBack.bu := by
          funext k; exact (hw k).2
        have w3 := e1.symm.trans (w1.trans e1')
        have w4 := e2.symm.trans (w2.trans e2')
        obtain ⟨b1, b2, b3, b4⟩ := b
        exact congr (congr (congr (congrArg Back.mk w1) w2) w3) w4
      have hl : l.backward boxDomain .affine eps s (convert2BackwardMode boxDomain Prod.mk .affine (inputTensorsBox .affine xmin xmax) b) =
          l.backward boxDomain .affine eps s (n.forward boxDomain .affine eps s (inputTensorsBox .affine xmin xmax)) := by
        cases l with
        | relu gf gb =>
          have hx := Net.forward_x (D := (boxDomain : PertDomain _ ι α)) (m := .affine) (eps := eps) (slope := s)
            (inp := inputTensorsBox .affine xmin xmax) n
          subst hu
          simp only [Lay.backward, backwardRelu, Full.tighten, convert2BackwardMode, Full.toBack, getAffine]
          simp only [reduceCtorEq, if_false, Bool.and_true, Bool.true_and, beq_self_eq_true, Bool.true_or, if_true, hx]
        | _ => rfl
      refine node_ext ?_ ?_
      · have e : (boxCrown .affine eps s false xmin xmax).childInput n ((boxCrown .affine eps s false xmin xmax).node n) =
            .ok (convert2BackwardMode boxDomain Prod.mk .affine (inputTensorsBox .affine xmin xmax) b) := by
          rw [CrownCfg.childInput, hb1]; rfl
        simp only [CrownCfg.node, e]
        rw [hb]
        exact congrArg _ hl
      · intro ν c
        have e : (boxCrown .affine eps s false xmin xmax).childInput n ((boxCrown .affine eps s false xmin xmax).node n) =
            .ok (convert2BackwardMode boxDomain Prod.mk .affine (inputTensorsBox .affine xmin xmax) b) := by
          rw [CrownCfg.childInput, hb1]; rfl
        simp only [CrownCfg.node, e]
        rw [hb]
        exact congrArg (fun z => ((boxCrown .affine eps s true xmin xmax).node n).next ν (mergeWithPrevious z c)) hl
    · rw [node_plain _ n l h.2, node_plain _ n l h.2, ih h.1]
  | merge op n0 n1 => exact h.elim

/-- C124: with at most one activation layer, `crown` gives the same result as crown-forward-affine. -/
theorem C124_one_relu (eps : α) (he : 0 < eps) (slope : Slope) (xmin xmax : ι → α) (n : Net α ι κ) (h : n.OneRelu) :
    (boxCrown .affine eps slope false xmin xmax).model n = (boxCrown .affine eps slope true xmin xmax).model n := by
  rw [CrownCfg.model, CrownCfg.model, oneRelu_node eps he slope xmin xmax n h]; rfl

end One

section Ball
variable {ι κ : Type} [Fintype ι] [DecidableEq ι] [Nonempty ι]

/-- C124 over a ball: the bounds that the domain reads off the affine bounds are at least as tight.
Missing: as for `C124_inside_partial`. -/
theorem C124_ball_partial (m : Mode) (hm : getAffine m = true) (leps : ℝ) (he : 0 < leps) (slope : Slope) (stack : (ι → ℝ) → (ι → ℝ) → ι → ℝ)
    (eps : ℝ) (he' : 0 ≤ eps) (q : PVal) (hq : q = .inf ∨ q = .fin 1 ∨ q = .fin 2) (z : ι → ℝ) (n : Net ℝ ι κ) (hc : n.Chain) (hw : n.WF)
    (hg : n.SameAlpha) (hs : n.SliverOK (ballDomain eps q) m leps slope (inputTensorsBall m eps q z)) :
    let f := n.forward (ballDomain eps q) m leps slope (inputTensorsBall m eps q z)
    ∃ out, (CrownCfg.mk (ballDomain eps q) stack m leps slope true (inputTensorsBall m eps q z)).model n = .ok out ∧
      InsideOn (LpBall z eps q) out f ∧
      ∀ k, (ballDomain eps q).getLower z (fun i => f.wl i k) (f.bl k) ≤ (ballDomain eps q).getLower z (fun i => out.wl i k) (out.bl k) ∧
        (ballDomain eps q).getUpper z (fun i => out.wu i k) (out.bu k) ≤ (ballDomain eps q).getUpper z (fun i => f.wu i k) (f.bu k) := by
  intro f
  obtain ⟨out, h1, h2⟩ := C124_inside_partial (CrownCfg.mk (ballDomain eps q) stack m leps slope true (inputTensorsBall m eps q z)) hm he rfl
    (LpBall z eps q) (ball_input_sound m eps q z) (fun p hp => C27_input_ball m eps q z p hp) n hc hw hg hs
  refine ⟨out, h1, h2, fun k => ⟨?_, ?_⟩⟩
  · obtain ⟨u, l, -, hl, -, -, p, hp, e⟩ := C02_ball_sound_and_exact z (fun i => out.wl i k) eps (out.bl k) he' q hq
    have e' : (ballDomain eps q).getLower z (fun i => out.wl i k) (out.bl k) = l := by simp only [ballDomain, hl]; rfl
    rw [e', ← e]
    exact ((C02_ballDomain_sound z eps q p hp _ _).1).trans (h2 p hp k).1
  · obtain ⟨u, l, hu, -, -, ⟨p, hp, e⟩, -⟩ := C02_ball_sound_and_exact z (fun i => out.wu i k) eps (out.bu k) he' q hq
    have e' : (ballDomain eps q).getUpper z (fun i => out.wu i k) (out.bu k) = u := by simp only [ballDomain, hu]; rfl
    rw [e', ← e]
    exact (h2 p hp k).2.trans (C02_ballDomain_sound z eps q p hp _ _).2

end Ball

/-- ReLU without finetuning. -/
abbrev plainRelu {κ : Type} : Lay ℚ κ κ := .relu (fun _ => 1) fun _ => 1

/-- Three hidden ReLU layers on one input. -/
def orderNet : Net ℚ (Fin 1) (Fin 1) :=
  .layer (.layer (.layer (.layer (.layer (.layer (.layer .input (.dense (fun _ => ![-2, -2]) ![2, 0])) plainRelu)
    (.dense ![![2, 1], ![-1, -1]] ![0, 1])) plainRelu) (.dense (μ := Fin 1) ![fun _ => -1, fun _ => 1] fun _ => 2)) plainRelu)
    (.dense (fun _ _ => -1) fun _ => 0)

/-- C124: method `crown` can be looser than forward-affine: on `[-1, 1]` the upper bound of `orderNet` is `1` for `crown` and `0` for
forward-affine and crown-forward-affine. -/
theorem C124_crown_refuted :
    orderNet.Chain ∧ orderNet.WF ∧ orderNet.SameAlpha ∧
    ∃ out out', (boxCrown .affine (1 / 10000000) .vSlope false (fun _ => -1) fun _ => 1).model orderNet = .ok out ∧
      (boxCrown .affine (1 / 10000000) .vSlope true (fun _ => -1) fun _ => 1).model orderNet = .ok out' ∧
      rangeUpper .affine (fun _ => -1, fun _ => 1) out 0 = 1 ∧ rangeUpper .affine (fun _ => -1, fun _ => 1) out' 0 = 0 ∧
      rangeUpper .affine (fun _ => -1, fun _ => 1)
        (orderNet.forward boxDomain .affine (1 / 10000000) .vSlope (inputTensorsBox .affine (fun _ => -1) fun _ => 1)) 0 = 0 := by
  refine ⟨trivial, ⟨⟨⟨⟨⟨⟨⟨trivial, trivial⟩, ?_⟩, trivial⟩, ?_⟩, trivial⟩, ?_⟩, trivial⟩, ⟨⟨⟨⟨⟨⟨⟨trivial, trivial⟩, rfl⟩, trivial⟩, rfl⟩, trivial⟩, rfl⟩, trivial⟩,
    _, _, rfl, rfl, ?_, ?_, ?_⟩
  · intro k; norm_num
  · intro k; norm_num
  · intro k; norm_num
  all_goals decide +kernel

/-- C124: in hybrid mode only the affine bounds compare: on `[-1, 2]` the lower bound of `ReLU(x)` is `-1` for crown-forward-hybrid and `0` for
forward-hybrid, whose constant bounds do not come from the affine ones. -/
theorem C124_hybrid_range_refuted :
    let n : Net ℚ (Fin 1) (Fin 1) := .layer .input plainRelu
    ∃ out, (boxCrown .hybrid (1 / 10000000) .vSlope true (fun _ => -1) fun _ => 2).model n = .ok out ∧
      rangeLower .hybrid (fun _ => -1, fun _ => 2) out 0 = -1 ∧
      rangeLower .hybrid (fun _ => -1, fun _ => 2)
        (n.forward boxDomain .hybrid (1 / 10000000) .vSlope (inputTensorsBox .hybrid (fun _ => -1) fun _ => 2)) 0 = 0 := by
  refine ⟨_, rfl, ?_, ?_⟩ <;> decide +kernel

/-- C124: with a finetuning parameter trained in the forward layer only, the backward bounds can be looser: on `[-1, 2]` the lower bound of
`ReLU(x)` is `-1` for crown-forward-affine and `0` for forward-affine. -/
theorem C124_finetune_refuted :
    let n : Net ℚ (Fin 1) (Fin 1) := .layer .input (.relu (fun _ => 0) fun _ => 1)
    n.WF ∧ ∃ out, (boxCrown .affine (1 / 10000000) .vSlope true (fun _ => -1) fun _ => 2).model n = .ok out ∧
      rangeLower .affine (fun _ => -1, fun _ => 2) out 0 = -1 ∧
      rangeLower .affine (fun _ => -1, fun _ => 2)
        (n.forward boxDomain .affine (1 / 10000000) .vSlope (inputTensorsBox .affine (fun _ => -1) fun _ => 2)) 0 = 0 := by
  refine ⟨⟨trivial, fun k => by norm_num⟩, _, rfl, ?_, ?_⟩ <;> decide +kernel

/-- `ReLU(x) - ReLU(x)`, the two copies made by a `Dense` layer. -/
def twinNet : Net ℚ (Fin 1) (Fin 1) :=
  .layer (.layer (.layer .input plainRelu) (.dense (μ := Fin 2) (fun _ _ => 1) fun _ => 0)) (.dense (μ := Fin 1) ![fun _ => 1, fun _ => -1] fun _ => 0)

/-- C124: in the sliver of the ReLU hull, where the affine bounds cross, the upper form of crown-forward-affine can lie above that of
forward-affine: at `2e-8` in `[-1e-8, 2e-8]`. -/
theorem C124_sliver_refuted :
    twinNet.Chain ∧ twinNet.SameAlpha ∧
    ∃ out, (boxCrown .affine (1 / 10000000) .vSlope true (fun _ => -1 / 100000000) fun _ => 2 / 100000000).model twinNet = .ok out ∧
      affEval (fun i => (twinNet.forward boxDomain .affine (1 / 10000000) .vSlope
          (inputTensorsBox .affine (fun _ => -1 / 100000000) fun _ => 2 / 100000000)).wu i 0)
        ((twinNet.forward boxDomain .affine (1 / 10000000) .vSlope
          (inputTensorsBox .affine (fun _ => -1 / 100000000) fun _ => 2 / 100000000)).bu 0) (fun _ => 2 / 100000000) <
      affEval (fun i => out.wu i 0) (out.bu 0) fun _ => 2 / 100000000 := by
  refine ⟨trivial, ⟨⟨⟨trivial, rfl⟩, trivial⟩, trivial⟩, _, rfl, ?_⟩
  decide +kernel

theorem twinNet_sliver : twinNet.SliverOK boxDomain .affine (1 / 10000000) .vSlope (inputTensorsBox .affine (fun _ => -1) fun _ => 2) := by
  refine ⟨⟨⟨trivial, ?_⟩, trivial⟩, trivial⟩
  intro _
  show ∀ k, ¬ _
  decide +kernel

theorem twinNet_wf : twinNet.WF := ⟨⟨⟨trivial, fun _ => by norm_num⟩, trivial⟩, trivial⟩

/-- The theorems of C124 for this network on `[-1, 2]`, also with one more layer above. -/
example : ∃ out, (boxCrown .affine (1 / 10000000) .vSlope true (fun _ => -1) fun _ => 2).model twinNet = .ok out ∧
    InsideOn (Box (fun _ => -1) fun _ => 2) out (twinNet.forward boxDomain .affine (1 / 10000000) .vSlope (inputTensorsBox .affine (fun _ => -1) fun _ => 2)) ∧
    rangeUpper .affine (fun _ => -1, fun _ => 2) out 0 ≤
      rangeUpper .affine (fun _ => -1, fun _ => 2) (twinNet.forward boxDomain .affine (1 / 10000000) .vSlope (inputTensorsBox .affine (fun _ => -1) fun _ => 2)) 0 := by
  obtain ⟨out, h, h1, h2⟩ := C124_box_partial .affine rfl (1 / 10000000) (by norm_num) .vSlope (fun _ => -1) (fun _ => 2) (fun _ => by norm_num) twinNet
    C124_sliver_refuted.1 twinNet_wf C124_sliver_refuted.2.1 twinNet_sliver
  exact ⟨out, h, h1, (h2 0).2⟩

example (M : Fin 1 → Fin 2 → ℚ) : (∃ out, (boxCrown .affine (1 / 10000000) .vSlope true (fun _ => -1) fun _ => 2).model twinNet = .ok out) ∧
    ∃ out, (boxCrown .affine (1 / 10000000) .vSlope true (fun _ => -1) fun _ => 2).modelBack twinNet M = .ok out ∧
      InsideOn (Box (fun _ => -1) fun _ => 2) out
        ((Net.layer twinNet (.dense M fun _ => 0)).forward boxDomain .affine (1 / 10000000) .vSlope (inputTensorsBox .affine (fun _ => -1) fun _ => 2)) := by
  have v : ∀ p ∈ Box (fun _ : Fin 1 => (-1 : ℚ)) fun _ => 2, Valid .affine false (inputTensorsBox .affine (fun _ => -1) fun _ => 2) p p := fun p hp => C27_input_box .affine _ _ _ hp
  obtain ⟨out, h, -⟩ := C124_inside_partial (boxCrown .affine (1 / 10000000 : ℚ) .vSlope true (fun _ : Fin 1 => -1) fun _ => 2) rfl (by norm_num [boxCrown]) rfl _ (boxDomain_sound _ _) v twinNet
    C124_sliver_refuted.1 twinNet_wf C124_sliver_refuted.2.1 twinNet_sliver
  exact ⟨⟨out, h⟩, C124_back_bounds_partial (boxCrown .affine (1 / 10000000 : ℚ) .vSlope true (fun _ : Fin 1 => -1) fun _ => 2) rfl (by norm_num [boxCrown]) rfl _ (boxDomain_sound _ _) v twinNet
    C124_sliver_refuted.1 twinNet_wf C124_sliver_refuted.2.1 twinNet_sliver M⟩

example : (boxCrown .affine (1 / 10000000) .vSlope false (fun _ => -1) fun _ => 2).model twinNet = (boxCrown .affine (1 / 10000000) .vSlope true (fun _ => -1) fun _ => 2).model twinNet :=
  C124_one_relu _ (by norm_num) _ _ _ twinNet (.inr ⟨.inr ⟨.inl trivial, trivial⟩, trivial⟩)

/-- Non-vacuity of C124: on `[-1, 2]` the network `ReLU(x) - ReLU(x)` has the range `[0, 0]` for crown-forward-affine, and a larger one for
forward-affine. -/
example : twinNet.SliverOK boxDomain .affine (1 / 10000000) .vSlope (inputTensorsBox .affine (fun _ => -1) fun _ => 2) ∧
    (∃ out, (boxCrown .affine (1 / 10000000) .vSlope true (fun _ => -1) fun _ => 2).model twinNet = .ok out ∧
      rangeUpper .affine (fun _ => -1, fun _ => 2) out 0 = 0 ∧ rangeLower .affine (fun _ => -1, fun _ => 2) out 0 = 0) ∧
    0 < rangeUpper .affine (fun _ => -1, fun _ => 2)
      (twinNet.forward boxDomain .affine (1 / 10000000) .vSlope (inputTensorsBox .affine (fun _ => -1) fun _ => 2)) 0 := by
  refine ⟨⟨⟨⟨trivial, ?_⟩, trivial⟩, trivial⟩, ⟨_, rfl, ?_, ?_⟩, ?_⟩
  · intro _
    show ∀ k, ¬ _
    decide +kernel
  all_goals decide +kernel

/-- Non-vacuity of `C124_one_relu`. -/
example : twinNet.OneRelu := .inr ⟨.inr ⟨.inl trivial, trivial⟩, trivial⟩

end Decomon
