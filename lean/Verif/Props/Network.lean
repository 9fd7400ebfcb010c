import Verif.Lemmas.Mono
import Mathlib.Algebra.BigOperators.Fin

/-! Properties C26 to C32: chaining, whole networks, change of mode, monotonicity. -/

namespace Decomon

section
variable {X ι κ κ' ν α : Type} [Fintype ι] [Field α] [LinearOrder α] [IsStrictOrderedRing α]

/-- C26: chaining two affine enclosures. -/
theorem C26_merge_with_previous_sound [Fintype κ] (prev : Back ι κ α) (b : Back κ ν α) (x : ι → α) (y : κ → α) (t : ν → α)
    (h1 : prev.Holds x y) (h2 : b.Holds y t) : (mergeWithPrevious prev b).Holds x t :=
  holds_merge prev b x y t h1 h2

/-- C26: a vector of weights stands for the diagonal matrix, on either side. -/
theorem C26_diagonal [Fintype κ] [DecidableEq κ] (wu bu wl bl : κ → α) (y t : κ → α) :
    (Back.ofDiag wu bu wl bl).Holds y t ↔ ∀ k, wl k * y k + bl k ≤ t k ∧ t k ≤ wu k * y k + bu k := by
  simp only [Back.Holds, Back.ofDiag, diagLike_sum]

/-- C26: chaining with a diagonal on the left scales the rows; with exact (equal) bounds the chaining is exact. -/
theorem C26_merge_exact [Fintype κ] (w : ι → κ → α) (bw : κ → α) (v : κ → ν → α) (bv : ν → α) (i : ι) (n : ν) :
    (mergeWithPrevious ⟨w, bw, w, bw⟩ ⟨v, bv, v, bv⟩).wu i n = ∑ k, w i k * v k n ∧
    (mergeWithPrevious ⟨w, bw, w, bw⟩ ⟨v, bv, v, bv⟩).wl i n = ∑ k, w i k * v k n ∧
    (mergeWithPrevious ⟨w, bw, w, bw⟩ ⟨v, bv, v, bv⟩).bu n = (∑ k, bw k * v k n) + bv n ∧
    (mergeWithPrevious ⟨w, bw, w, bw⟩ ⟨v, bv, v, bv⟩).bl n = (∑ k, bw k * v k n) + bv n := by
  have e : ∀ a : κ → α, (∑ k, a k * max (v k n) 0) + ∑ k, a k * min (v k n) 0 = ∑ k, a k * v k n := by
    intro a
    rw [← Finset.sum_add_distrib]
    refine Finset.sum_congr rfl fun k _ => ?_
    rw [← mul_add, pos_add_neg]
  simp only [mergeWithPrevious, e, and_self]

/-- C26: the identity bounds are neutral on the left. -/
theorem C26_identity_left [Fintype κ] [DecidableEq κ] (b : Back κ ν α) : mergeWithPrevious Back.identity b = b := by
  have e : ∀ (v : κ → α) i, (∑ k, diagLike (fun _ => (1 : α)) i k * v k) = v i := by
    intro v i
    simp [diagLike]
  cases b
  simp only [mergeWithPrevious, Back.identity, e, pos_add_neg, zero_mul, Finset.sum_const_zero, zero_add]

/-- Non-vacuity of C26: `2x - 1 ≤ y ≤ 2x + 1` and `-y ≤ t ≤ -y + 1` at `x = 3`, `y = 6`, `t = -5.5`. -/
example : (⟨fun _ _ => 2, fun _ => 1, fun _ _ => 2, fun _ => -1⟩ : Back (Fin 1) (Fin 1) ℚ).Holds (fun _ => 3) (fun _ => 6) ∧
    (⟨fun _ _ => -1, fun _ => 1, fun _ _ => -1, fun _ => 0⟩ : Back (Fin 1) (Fin 1) ℚ).Holds (fun _ => 6) (fun _ => -11 / 2) := by
  constructor <;> intro k <;> simp [affEval] <;> norm_num

/-- C27: forward LiRPA of a network is sound, any graph of layers and merge layers, any depth, in every mode.
Missing with respect to the full claim: networks for which a neuron falls in the sliver of the ReLU hull (affine and hybrid mode),
refuted below. -/
theorem C27_forward_valid_partial (D : PertDomain X ι α) (m : Mode) (eps : α) (he : 0 < eps) (slope : Slope) (inp : Full X ι ι α)
    (S : Set (ι → α)) (hD : D.Sound inp.x S) (n : Net α ι κ) (hn : n.WF) (hs : n.SliverOK D m eps slope inp) (p : ι → α) (hp : p ∈ S)
    (hi : Valid m false inp p p) : Valid m false (n.forward D m eps slope inp) p (n.eval p) :=
  Net.forward_valid D m eps he slope inp S hD p hp hi n hn hs

/-- C27: in ibp mode (`forward-ibp`) there is no restriction. -/
theorem C27_forward_valid_ibp (D : PertDomain X ι α) (eps : α) (he : 0 < eps) (slope : Slope) (inp : Full X ι ι α)
    (S : Set (ι → α)) (hD : D.Sound inp.x S) (n : Net α ι κ) (hn : n.WF) (p : ι → α) (hp : p ∈ S)
    (hi : Valid .ibp false inp p p) (k : κ) :
    (n.forward D .ibp eps slope inp).lc k ≤ n.eval p k ∧ n.eval p k ≤ (n.forward D .ibp eps slope inp).uc k :=
  (Net.forward_valid D .ibp eps he slope inp S hD p hp hi n hn (n.sliverOK_ibp D eps slope inp)).const rfl k

/-- C27: the input tensors of a box are valid. -/
theorem C27_input_box [DecidableEq ι] (m : Mode) (xmin xmax p : ι → α) (hp : p ∈ Box xmin xmax) :
    Valid m false (inputTensorsBox m xmin xmax) p p := by
  refine ⟨fun hi k => ?_, fun ha k => ?_, by simp⟩
  · simp only [inputTensorsBox, hi, if_true]; exact hp k
  · simp only [inputTensorsBox, ha, if_true, pick_sum]; simp

/-- C27: end to end on a box, ibp mode. -/
theorem C27_box_ibp [DecidableEq ι] (eps : α) (he : 0 < eps) (slope : Slope) (xmin xmax : ι → α) (n : Net α ι κ) (hn : n.WF)
    (p : ι → α) (hp : p ∈ Box xmin xmax) (k : κ) :
    (n.forward boxDomain .ibp eps slope (inputTensorsBox .ibp xmin xmax)).lc k ≤ n.eval p k ∧
    n.eval p k ≤ (n.forward boxDomain .ibp eps slope (inputTensorsBox .ibp xmin xmax)).uc k :=
  C27_forward_valid_ibp boxDomain eps he slope _ (Box xmin xmax) (boxDomain_sound xmin xmax) n hn p hp
    (C27_input_box .ibp xmin xmax p hp) k

/-- C27: end to end on a box, any mode.  Missing: slivers. -/
theorem C27_box_partial [DecidableEq ι] (m : Mode) (eps : α) (he : 0 < eps) (slope : Slope) (xmin xmax : ι → α) (n : Net α ι κ)
    (hn : n.WF) (hs : n.SliverOK boxDomain m eps slope (inputTensorsBox m xmin xmax)) (p : ι → α) (hp : p ∈ Box xmin xmax) :
    Valid m false (n.forward boxDomain m eps slope (inputTensorsBox m xmin xmax)) p (n.eval p) :=
  C27_forward_valid_partial boxDomain m eps he slope _ (Box xmin xmax) (boxDomain_sound xmin xmax) n hn hs p hp
    (C27_input_box m xmin xmax p hp)

end

section Ball
variable {ι κ : Type} [Fintype ι] [DecidableEq ι] [Nonempty ι]

/-- C27: the input tensors of an `Lp` ball are valid (`p = 1, 2, inf`). -/
theorem C27_input_ball (m : Mode) (eps : ℝ) (q : PVal) (z p : ι → ℝ) (hp : p ∈ LpBall z eps q) :
    Valid m false (inputTensorsBall m eps q z) p p := by
  refine ⟨fun hi k => ?_, fun ha k => ?_, by simp⟩
  · simp only [inputTensorsBall, hi, if_true]
    split
    · rename_i hq
      subst hq
      rcases hp with ⟨-, hp⟩ | ⟨h, -⟩ | ⟨h, -⟩
      · have := abs_le.mp (hp k); constructor <;> linarith
      · cases h
      · cases h
    · have := C02_ballDomain_sound z eps q p hp (fun i => if i = k then 1 else 0) 0
      rw [pick_sum, add_zero] at this
      exact this
  · simp only [inputTensorsBall, ha, if_true, pick_sum]; simp

theorem ball_input_sound (m : Mode) (eps : ℝ) (q : PVal) (z : ι → ℝ) :
    (ballDomain eps q).Sound (inputTensorsBall m eps q z).x (LpBall z eps q) :=
  C02_ballDomain_sound z eps q

/-- C27: end to end on an `Lp` ball, ibp mode. -/
theorem C27_ball_ibp (leps : ℝ) (he : 0 < leps) (slope : Slope) (eps : ℝ) (q : PVal) (z : ι → ℝ) (n : Net ℝ ι κ) (hn : n.WF)
    (p : ι → ℝ) (hp : p ∈ LpBall z eps q) (k : κ) :
    (n.forward (ballDomain eps q) .ibp leps slope (inputTensorsBall .ibp eps q z)).lc k ≤ n.eval p k ∧
    n.eval p k ≤ (n.forward (ballDomain eps q) .ibp leps slope (inputTensorsBall .ibp eps q z)).uc k :=
  C27_forward_valid_ibp (ballDomain eps q) leps he slope (inputTensorsBall .ibp eps q z) (LpBall z eps q)
    (ball_input_sound .ibp eps q z) n hn p hp (C27_input_ball .ibp eps q z p hp) k

/-- C27: end to end on an `Lp` ball, any mode.  Missing: slivers. -/
theorem C27_ball_partial (m : Mode) (leps : ℝ) (he : 0 < leps) (slope : Slope) (eps : ℝ) (q : PVal) (z : ι → ℝ) (n : Net ℝ ι κ)
    (hn : n.WF) (hs : n.SliverOK (ballDomain eps q) m leps slope (inputTensorsBall m eps q z)) (p : ι → ℝ) (hp : p ∈ LpBall z eps q) :
    Valid m false (n.forward (ballDomain eps q) m leps slope (inputTensorsBall m eps q z)) p (n.eval p) :=
  C27_forward_valid_partial (ballDomain eps q) m leps he slope (inputTensorsBall m eps q z) (LpBall z eps q)
    (ball_input_sound m eps q z) n hn hs p hp (C27_input_ball m eps q z p hp)

end Ball

/-- A concrete network: `Dense(1)`, ReLU, added to its own input, on one input. -/
def exampleNet : Net ℚ (Fin 1) (Fin 1) :=
  .merge .add (.layer (.layer .input (.dense (fun _ _ => -2) (fun _ => 1))) (.relu (fun _ => 1) (fun _ => 1))) .input

/-- Non-vacuity of C27: the network above meets the hypotheses on `[-1,1]` in every mode. -/
example (m : Mode) : exampleNet.WF ∧
    exampleNet.SliverOK boxDomain m (1 / 10000000) .vSlope (inputTensorsBox m (fun _ => -1) (fun _ => 1)) := by
  refine ⟨?_, ?_⟩
  · simp [exampleNet, Net.WF, Lay.WF]
  · refine ⟨⟨⟨trivial, trivial⟩, ?_⟩, trivial, trivial⟩
    intro ha k
    cases m
    · simp [getAffine] at ha
    all_goals
      simp [Full.tighten, Net.forward, Lay.forward, denseT, inputTensorsBox, boxDomain, getUpperBox, getLowerBox, getAffine, getIbp]
      norm_num

/-- C27 and C28: the network `Dense(ReLU(x))` on one input, used to exhibit the failure. -/
def sliverNet (eps M : ℚ) : Net ℚ (Fin 1) (Fin 1) :=
  .layer (.layer .input (.relu (fun _ => 1) (fun _ => 1))) (.dense (fun _ _ => 8 * M / eps) (fun _ => 0))

theorem sliver_hull (eps : ℚ) (he : 0 < eps) (s : Slope) :
    (linearHullRelu eps s 1 (eps / 4) (-(eps / 4))).wu = 1 / 4 ∧ (linearHullRelu eps s 1 (eps / 4) (-(eps / 4))).bu = eps / 16 := by
  have h1 : (0 : ℚ) < eps / 4 := by linarith
  have h2 : -(eps / 4) < 0 := by linarith
  have h3 : max eps (eps / 4 - -(eps / 4)) = eps := max_eq_left (by linarith)
  have e : eps / 4 / eps = 1 / 4 := by field_simp
  simp only [linearHullRelu, indexDead_of_pos h1, indexLinear_of_neg h2, relu_of_nonneg h1.le, relu_of_nonpos h2.le, h3, sub_zero, e]
  constructor <;> ring

/-- C27: in affine and hybrid mode the claim fails without the sliver hypothesis, by any amount `M`: on the box
`[-eps/4, eps/4]`, one ReLU followed by one Dense layer. -/
theorem C27_forward_refuted (m : Mode) (hm : getAffine m = true) (eps M : ℚ) (he : 0 < eps) (hM : 0 < M) (s : Slope) :
    ∃ p ∈ Box (fun _ : Fin 1 => -(eps / 4)) (fun _ => eps / 4), (sliverNet eps M).WF ∧
      let out := (sliverNet eps M).forward boxDomain m eps s (inputTensorsBox m (fun _ => -(eps / 4)) (fun _ => eps / 4))
      affEval (fun i => out.wu i 0) (out.bu 0) p + M = (sliverNet eps M).eval p 0 := by
  have hp : (fun _ : Fin 1 => eps / 4) ∈ Box (fun _ : Fin 1 => -(eps / 4)) (fun _ => eps / 4) :=
    fun i => ⟨by linarith, le_rfl⟩
  refine ⟨fun _ => eps / 4, hp, by simp [sliverNet, Net.WF, Lay.WF], ?_⟩
  obtain ⟨w, b⟩ := sliver_hull eps he s
  have hpos : (0 : ℚ) < 8 * M / eps := by positivity
  have hle : (0:ℚ) ≤ eps / 4 := by linarith
  have hne : eps ≠ 0 := he.ne'
  cases m
  · simp [getAffine] at hm
  all_goals
    simp [sliverNet, Net.forward, Lay.forward, denseT, reluT, Full.tighten, inputTensorsBox, boxDomain, getUpperBox, getLowerBox,
      getAffine, getIbp, affEval, Net.eval, Lay.eval, w, b, max_eq_right hpos.le, min_eq_left hpos.le, max_eq_left hle]
    field_simp
    norm_num

section Crown
variable {X ι κ κ' ν α : Type} [Fintype ι] [DecidableEq ι] [Field α] [LinearOrder α] [IsStrictOrderedRing α]

/-- C28: backward LiRPA of a chain of layers is sound: the conversion succeeds and its bounds enclose the output of the network, in
every mode, with intermediate bounds from a forward pass (`useForward = true`) or from the backward pass itself.
Missing with respect to the full claim: networks for which a neuron falls in the sliver of the ReLU hull, refuted below. -/
theorem C28_crown_valid_partial (c : CrownCfg X ι α) (he : 0 < c.eps) (S : Set (ι → α)) (hD : c.D.Sound c.inp.x S)
    (hst : c.m = .ibp → c.D.Sound (c.stack c.inp.lc c.inp.uc) S) (n : Net α ι κ) (hc : n.Chain) (hn : n.WF) (hs : c.SliverOK n)
    (p : ι → α) (hp : p ∈ S) (hi : Valid c.m false c.inp p p) :
    ∃ out, c.model n = .ok out ∧ Valid c.m false out p (n.eval p) := by
  obtain ⟨⟨b, h1, h2⟩, -⟩ := c.node_holds he S hD hst p hp hi n hc hn hs
  exact ⟨_, by rw [CrownCfg.model, h1]; rfl, convert2BackwardMode_valid c.D c.stack c.m c.inp S (fun _ => hD) hst p hp b _ h2⟩

theorem boxCrown_stack (m : Mode) (eps : α) (slope : Slope) (uf : Bool) (xmin xmax : ι → α) (h : m = .ibp) :
    (boxCrown m eps slope uf xmin xmax).D.Sound
      ((boxCrown m eps slope uf xmin xmax).stack (boxCrown m eps slope uf xmin xmax).inp.lc
        (boxCrown m eps slope uf xmin xmax).inp.uc) (Box xmin xmax) := by
  subst h
  simpa [boxCrown, inputTensorsBox, getIbp] using boxDomain_sound xmin xmax

/-- C28: end to end on a box, for `crown` (`m = ibp`, `useForward = false`) and `crown-forward-*` (`useForward = true`).
Missing: slivers. -/
theorem C28_box_partial (m : Mode) (eps : α) (he : 0 < eps) (slope : Slope) (uf : Bool) (xmin xmax : ι → α) (n : Net α ι κ)
    (hc : n.Chain) (hn : n.WF) (hs : (boxCrown m eps slope uf xmin xmax).SliverOK n) (p : ι → α) (hp : p ∈ Box xmin xmax) :
    ∃ out, (boxCrown m eps slope uf xmin xmax).model n = .ok out ∧ Valid m false out p (n.eval p) :=
  C28_crown_valid_partial (boxCrown m eps slope uf xmin xmax) he (Box xmin xmax) (boxDomain_sound xmin xmax)
    (boxCrown_stack m eps slope uf xmin xmax) n hc hn hs p hp (C27_input_box m xmin xmax p hp)

/-- C30: with `back_bounds = [C]` the result encloses `y · C`.  Missing: slivers, as for C28. -/
theorem C30_back_bounds_partial [Fintype κ] (c : CrownCfg X ι α) (he : 0 < c.eps) (S : Set (ι → α)) (hD : c.D.Sound c.inp.x S)
    (hst : c.m = .ibp → c.D.Sound (c.stack c.inp.lc c.inp.uc) S) (n : Net α ι κ) (hc : n.Chain) (hn : n.WF) (hs : c.SliverOK n)
    (C : κ → ν → α) (p : ι → α) (hp : p ∈ S) (hi : Valid c.m false c.inp p p) :
    ∃ out, c.modelBack n C = .ok out ∧ Valid c.m false out p (fun j => ∑ k, n.eval p k * C k j) := by
  obtain ⟨-, h⟩ := c.node_holds he S hD hst p hp hi n hc hn hs
  obtain ⟨b, h1, h2⟩ := h ν ⟨C, fun _ => 0, C, fun _ => 0⟩ (fun j => ∑ k, n.eval p k * C k j) (fun j => by
    have e : affEval (fun k => C k j) 0 (n.eval p) = ∑ k, n.eval p k * C k j := by
      simp only [affEval, add_zero]; exact Finset.sum_congr rfl fun k _ => mul_comm _ _
    simp only [e, le_refl, and_self])
  exact ⟨_, by rw [CrownCfg.modelBack, h1]; rfl, convert2BackwardMode_valid c.D c.stack c.m c.inp S (fun _ => hD) hst p hp b _ h2⟩

/-- C58: the conversion of a model with a merge layer never returns. A chain is always converted. -/
theorem C58_crown_never_silent (c : CrownCfg X ι α) (n : Net α ι κ) : (∃ out, c.model n = .ok out) ↔ n.Chain := by
  have key : ∀ {κ : Type} (n : Net α ι κ),
      (n.Chain → (∃ b, (c.node n).first = .ok b) ∧ ∀ ν b, ∃ b', (c.node n).next ν b = .ok b') ∧
      (¬ n.Chain → (∀ b, (c.node n).first ≠ .ok b) ∧ ∀ ν b b', (c.node n).next ν b ≠ .ok b') := by
    intro κ n
    induction n with
    | input => exact ⟨fun _ => ⟨⟨_, rfl⟩, fun ν b => ⟨_, rfl⟩⟩, fun h => absurd trivial h⟩
    | @layer κ₁ κ₂ _ _ _ n l ih =>
      constructor
      · intro h
        obtain ⟨⟨b, hb⟩, hx⟩ := ih.1 h
        have : ∃ f, c.childInput n (c.node n) = .ok f := by
          unfold CrownCfg.childInput
          split
          · exact ⟨_, rfl⟩
          · exact ⟨_, by rw [hb]; rfl⟩
        obtain ⟨f, hf⟩ := this
        constructor
        · obtain ⟨b', h'⟩ := hx κ₂ (l.backward c.D c.m c.eps c.slope f)
          exact ⟨b', by simp only [CrownCfg.node, hf, Except.map, bind, Except.bind]; exact h'⟩
        · intro ν b
          obtain ⟨b', h'⟩ := hx ν (mergeWithPrevious (l.backward c.D c.m c.eps c.slope f) b)
          exact ⟨b', by simp only [CrownCfg.node, hf, Except.map, bind, Except.bind]; exact h'⟩
      · intro h
        obtain ⟨h1, h2⟩ := ih.2 h
        constructor
        · intro b hb
          simp only [CrownCfg.node] at hb
          cases hf : c.childInput n (c.node n) with
          | error e => simp [hf, Except.map, bind, Except.bind] at hb
          | ok f => simp only [hf, Except.map, bind, Except.bind] at hb; exact h2 _ _ _ hb
        · intro ν b b' hb
          simp only [CrownCfg.node] at hb
          cases hf : c.childInput n (c.node n) with
          | error e => simp [hf, Except.map, bind, Except.bind] at hb
          | ok f => simp only [hf, Except.map, bind, Except.bind] at hb; exact h2 _ _ _ hb
    | merge op n0 n1 _ _ =>
      refine ⟨fun h => h.elim, fun _ => ⟨fun b hb => ?_, fun ν b b' hb => ?_⟩⟩
      · simp only [CrownCfg.node] at hb
        cases h0 : c.childInput n0 (c.node n0) <;> cases h1 : c.childInput n1 (c.node n1) <;>
          simp [h0, h1, bind, Except.bind] at hb
      · simp only [CrownCfg.node] at hb
        cases h0 : c.childInput n0 (c.node n0) <;> cases h1 : c.childInput n1 (c.node n1) <;>
          simp [h0, h1, bind, Except.bind] at hb
  constructor
  · rintro ⟨out, h⟩
    by_contra hc
    cases hf : (c.node n).first with
    | error e => rw [CrownCfg.model, hf] at h; cases h
    | ok b => exact ((key n).2 hc).1 b hf
  · intro h
    obtain ⟨b, hb⟩ := ((key n).1 h).1
    exact ⟨_, by rw [CrownCfg.model, hb]; rfl⟩

/-- C58: whatever the method, the exception is the one of some merge layer of the network: `NotImplementedError` for `Add` and `Average`,
`KeyError` for the other ones. -/
theorem C58_exception (c : CrownCfg X ι α) (n : Net α ι κ) (h : ¬ n.Chain) :
    ∃ op ∈ n.mergeOps, (op = .add ∨ op = .average) ∧ c.model n = .error .notImplemented ∨
      ¬ (op = .add ∨ op = .average) ∧ c.model n = .error .keyError := by
  have key : ∀ {κ : Type} (n : Net α ι κ), ¬ n.Chain → (∃ op ∈ n.mergeOps, (c.node n).first = .error (crownMergeErr op)) ∧
      ∀ ν b, ∃ op ∈ n.mergeOps, (c.node n).next ν b = .error (crownMergeErr op) := by
    intro κ n
    induction n with
    | input => intro h; exact absurd trivial h
    | @layer κ₁ κ₂ _ _ _ n l ih =>
      intro h
      obtain ⟨-, h2⟩ := ih h
      cases hf : c.childInput n (c.node n) with
      | error e =>
        obtain ⟨op, ho, e1⟩ := (ih h).1
        have he : e = crownMergeErr op := by
          unfold CrownCfg.childInput at hf
          split at hf
          · cases hf
          · rw [e1] at hf; cases hf; rfl
        exact ⟨⟨op, ho, by simp only [CrownCfg.node, hf, Except.map, bind, Except.bind, he]⟩,
          fun ν b => ⟨op, ho, by simp only [CrownCfg.node, hf, Except.map, bind, Except.bind, he]⟩⟩
      | ok f =>
        simp only [CrownCfg.node, hf, Except.map, bind, Except.bind]
        exact ⟨h2 _ _, fun ν b => h2 _ _⟩
    | @merge κ₁ op n0 n1 ih0 ih1 =>
      intro _
      have sub : ∀ n' : Net α ι κ₁, (¬ n'.Chain → (∃ op ∈ n'.mergeOps, (c.node n').first = .error (crownMergeErr op)) ∧
          ∀ ν b, ∃ op ∈ n'.mergeOps, (c.node n').next ν b = .error (crownMergeErr op)) →
          (∃ f, c.childInput n' (c.node n') = .ok f) ∨ ∃ op ∈ n'.mergeOps, c.childInput n' (c.node n') = .error (crownMergeErr op) := by
        intro n' ih
        unfold CrownCfg.childInput
        split
        · exact .inl ⟨_, rfl⟩
        · by_cases hc : n'.Chain
          · obtain ⟨out, ho⟩ := (C58_crown_never_silent c n').2 hc
            exact .inl ⟨out, ho⟩
          · obtain ⟨op, ho, e⟩ := (ih hc).1
            exact .inr ⟨op, ho, by rw [e]; rfl⟩
      have : ∃ op' ∈ (Net.merge op n0 n1).mergeOps, (c.node (.merge op n0 n1)).first = .error (crownMergeErr op') ∧
          ∀ ν b, (c.node (.merge op n0 n1)).next ν b = .error (crownMergeErr op') := by
        simp only [CrownCfg.node, Net.mergeOps]
        rcases sub n0 ih0 with ⟨f0, e0⟩ | ⟨op', ho, e0⟩
        · rcases sub n1 ih1 with ⟨f1, e1⟩ | ⟨op', ho, e1⟩
          · exact ⟨op, by simp, by simp [e0, e1, bind, Except.bind]⟩
          · exact ⟨op', by simp [ho], by simp [e0, e1, bind, Except.bind]⟩
        · exact ⟨op', by simp [ho], by simp [e0, bind, Except.bind]⟩
      obtain ⟨op', ho, e1, e2⟩ := this
      exact ⟨⟨op', ho, e1⟩, fun ν b => ⟨op', ho, e2 ν b⟩⟩
  obtain ⟨op, ho, e⟩ := (key n h).1
  refine ⟨op, ho, ?_⟩
  rw [CrownCfg.model, e]
  cases op <;> simp [crownMergeErr, Except.map]

/-- C58: methods `crown-forward-*`: the exception is the one of the merge layer met first from the output. -/
theorem C58_forward_exceptions (c : CrownCfg X ι α) (hu : c.useForward = true) (n : Net α ι κ) (op : MergeOp)
    (h : n.lastMerge = some op) :
    ((op = .add ∨ op = .average) → c.model n = .error .notImplemented) ∧
    (¬ (op = .add ∨ op = .average) → c.model n = .error .keyError) := by
  have ch : ∀ {κ : Type} (n : Net α ι κ) (nd : CrownNode ι κ α),
      c.childInput n nd = .ok (n.forward c.D c.m c.eps c.slope c.inp) := by
    intro κ n nd; simp [CrownCfg.childInput, hu]
  have key : ∀ {κ : Type} (n : Net α ι κ), n.lastMerge = some op → (c.node n).first = .error (crownMergeErr op) ∧
      ∀ ν b, (c.node n).next ν b = .error (crownMergeErr op) := by
    intro κ n
    induction n with
    | input => intro h; cases h
    | layer n l ih =>
      intro h
      simp only [CrownCfg.node, ch, Except.map, bind, Except.bind]
      exact ⟨(ih h).2 _ _, fun ν b => (ih h).2 _ _⟩
    | merge op' n0 n1 _ _ =>
      intro h
      cases h
      simp [CrownCfg.node, ch, bind, Except.bind]
  rw [CrownCfg.model, (key n h).1]
  cases op <;> simp [crownMergeErr, Except.map]

/-- Non-vacuity of C58: a residual block is not a chain, a Dense layer is. -/
example : ¬ exampleNet.Chain ∧ (Net.layer .input (.dense (fun _ _ => 1) (fun _ => 0)) : Net ℚ (Fin 1) (Fin 1)).Chain :=
  ⟨id, trivial⟩

/-- C29: conversion between modes keeps the invariant, for the seven pairs without dummy affine bounds. -/
theorem C29_convert2Mode_valid (D : PertDomain X ι α) (mFrom mTo : Mode) (hm : mFrom ≠ .ibp ∨ mTo = .ibp) (f : Full X ι κ α)
    (S : Set (ι → α)) (hD : D.Sound f.x S) (p : ι → α) (hp : p ∈ S) (y : κ → α) (v : Valid mFrom false f p y) :
    Valid mTo false (convert2Mode D mFrom mTo f) p y := by
  have a := C04_tighten_valid D mFrom false (decide (mFrom = .affine ∧ mTo ≠ .affine)) (decide (mFrom = .hybrid ∧ mTo ≠ .affine)) f S
    hD p hp y v
  refine ⟨fun hi k => ?_, fun ha k => ?_, by simp⟩
  · simp only [convert2Mode, hi, if_true]
    cases mFrom
    · exact a.1.const rfl k
    · exact a.2 rfl (by cases mTo <;> simp_all [getIbp]) k
    · exact a.1.const rfl k
  · simp only [convert2Mode, ha, if_true]
    refine a.1.aff ?_ k
    cases mFrom
    · cases mTo <;> simp_all [getAffine]
    · rfl
    · rfl

/-- C29: from ibp to affine or hybrid, the dummy affine bounds are valid whatever the point, since their weights are zero.
Missing with respect to the full claim: they are bounds in terms of the *output* coordinates, see the refutation. -/
theorem C29_dummy_valid_partial [Fintype κ] (m : Mode) (f : Full X ι κ α) (y q : κ → α) (v : ∀ k, f.lc k ≤ y k ∧ y k ≤ f.uc k) :
    Valid m false (convert2ModeDummy f) q y := by
  refine ⟨fun _ k => v k, fun _ k => ?_, by simp⟩
  simp only [convert2ModeDummy, affEval, zero_mul, Finset.sum_const_zero, zero_add]
  exact v k

omit [Fintype ι] [DecidableEq ι] in
/-- C29: `convert_backward` from ibp to affine or hybrid returns `x` with `nIn` columns and weights with `nOut` rows: when the two
differ (and neither is 1), the affine bounds cannot be concretised. -/
theorem C29_dummy_shape_refuted (nIn nOut : ℕ) (h : nOut ≠ nIn) (h1 : nOut ≠ 1) (h2 : nIn ≠ 1) :
    upperBoxShape (dummyShapes nIn nOut) = .error .valueError := by
  simp [upperBoxShape, dummyShapes, h, h1, h2]

/-- C29: `Convert2BackwardMode`. -/
theorem C29_convert2BackwardMode_valid (D : PertDomain X ι α) (stack : (ι → α) → (ι → α) → X) (m : Mode)
    (inp : Full X ι ι α) (S : Set (ι → α)) (hD : m ≠ .ibp → D.Sound inp.x S)
    (hst : m = .ibp → D.Sound (stack inp.lc inp.uc) S) (p : ι → α) (hp : p ∈ S) (b : Back ι ν α) (t : ν → α)
    (h : b.Holds p t) : Valid m false (convert2BackwardMode D stack m inp b) p t :=
  convert2BackwardMode_valid D stack m inp S hD hst p hp b t h

/-- Non-vacuity of C29. -/
example (p : Fin 1 → ℚ) (hp : p ∈ Box (fun _ : Fin 1 => (-1 : ℚ)) (fun _ => 1)) :
    Valid .ibp false (convert2Mode boxDomain .affine .ibp (oneInput (-1) 1)) p p :=
  C29_convert2Mode_valid boxDomain .affine .ibp (by simp) _ _ (boxDomain_sound _ _) p hp p (oneInput_valid .affine (-1) 1 p hp)

omit [DecidableEq ι] in
/-- C31: the constant bounds of forward-hybrid lie inside those of forward-ibp, any network without `Multiply`, any domain, with no
hypothesis on the ReLU hulls. -/
theorem C31_hybrid_inside_ibp (D : PertDomain X ι α) (eps : α) (he : 0 < eps) (s s' : Slope) (inp inp' : Full X ι ι α)
    (h : ∀ i, inp'.lc i ≤ inp.lc i ∧ inp.uc i ≤ inp'.uc i) (n : Net α ι κ) (hn : n.WF) (hm : n.NoMultiply) (k : κ) :
    (n.forward D .ibp eps s' inp').lc k ≤ (n.forward D .hybrid eps s inp).lc k ∧
    (n.forward D .hybrid eps s inp).uc k ≤ (n.forward D .ibp eps s' inp').uc k :=
  tighter_net rfl eps he s s' h n hn (.inl hm) k

/-- C31: end to end on a box. -/
theorem C31_box (eps : α) (he : 0 < eps) (s : Slope) (xmin xmax : ι → α) (n : Net α ι κ) (hn : n.WF) (hm : n.NoMultiply) (k : κ) :
    (n.forward boxDomain .ibp eps s (inputTensorsBox .ibp xmin xmax)).lc k ≤
      (n.forward boxDomain .hybrid eps s (inputTensorsBox .hybrid xmin xmax)).lc k ∧
    (n.forward boxDomain .hybrid eps s (inputTensorsBox .hybrid xmin xmax)).uc k ≤
      (n.forward boxDomain .ibp eps s (inputTensorsBox .ibp xmin xmax)).uc k :=
  C31_hybrid_inside_ibp boxDomain eps he s s _ _ (fun i => by simp [inputTensorsBox, getIbp]) n hn hm k

/-- C31: networks with `Multiply` layers as well, when no neuron meets the sliver and the box is not empty. -/
theorem C31_box_with_multiply (eps : α) (he : 0 < eps) (s : Slope) (xmin xmax : ι → α) (hx : ∀ i, xmin i ≤ xmax i) (n : Net α ι κ)
    (hn : n.WF) (hs : n.SliverOK boxDomain .hybrid eps s (inputTensorsBox .hybrid xmin xmax)) (k : κ) :
    (n.forward boxDomain .ibp eps s (inputTensorsBox .ibp xmin xmax)).lc k ≤
      (n.forward boxDomain .hybrid eps s (inputTensorsBox .hybrid xmin xmax)).lc k ∧
    (n.forward boxDomain .hybrid eps s (inputTensorsBox .hybrid xmin xmax)).uc k ≤
      (n.forward boxDomain .ibp eps s (inputTensorsBox .ibp xmin xmax)).uc k :=
  tighter_net rfl eps he s s (fun i => by simp [inputTensorsBox, getIbp]) n hn (.inr ⟨Box xmin xmax, xmin, boxDomain_sound xmin xmax,
    fun i => ⟨le_rfl, hx i⟩, C27_input_box .hybrid xmin xmax xmin (fun i => ⟨le_rfl, hx i⟩), hs⟩) k

/-- C32: forward-ibp bounds are monotone in the box, any network. -/
theorem C32_ibp_monotone (eps : α) (he : 0 < eps) (s : Slope) (xmin xmax ymin ymax : ι → α) (hx : ∀ i, xmin i ≤ xmax i)
    (h : Box xmin xmax ⊆ Box ymin ymax) (n : Net α ι κ) (hn : n.WF) (k : κ) :
    (n.forward boxDomain .ibp eps s (inputTensorsBox .ibp ymin ymax)).lc k ≤
      (n.forward boxDomain .ibp eps s (inputTensorsBox .ibp xmin xmax)).lc k ∧
    (n.forward boxDomain .ibp eps s (inputTensorsBox .ibp xmin xmax)).uc k ≤
      (n.forward boxDomain .ibp eps s (inputTensorsBox .ibp ymin ymax)).uc k := by
  have h1 := h (show xmin ∈ Box xmin xmax from fun i => ⟨le_rfl, hx i⟩)
  have h2 := h (show xmax ∈ Box xmin xmax from fun i => ⟨hx i, le_rfl⟩)
  refine tighter_net rfl eps he s s (fun i => ?_) n hn (.inr ⟨Box xmin xmax, xmin, boxDomain_sound xmin xmax,
    fun i => ⟨le_rfl, hx i⟩, C27_input_box .ibp xmin xmax xmin (fun i => ⟨le_rfl, hx i⟩), n.sliverOK_ibp _ _ _ _⟩) k
  simp only [inputTensorsBox, getIbp, if_true]
  exact ⟨(h1 i).1, (h2 i).2⟩

/-- Non-vacuity of C31 and C32. -/
example : exampleNet.NoMultiply ∧ exampleNet.WF ∧
    Box (fun _ : Fin 1 => (0 : ℚ)) (fun _ => 1) ⊆ Box (fun _ : Fin 1 => (-1 : ℚ)) (fun _ => 1) := by
  refine ⟨?_, ?_, fun p hp i => ⟨by have := (hp i).1; linarith, (hp i).2⟩⟩
  · simp [exampleNet, Net.NoMultiply]
  · simp [exampleNet, Net.WF, Lay.WF]

end Crown

/-- A chain: ReLU after Dense. -/
def chainNet : Net ℚ (Fin 1) (Fin 1) :=
  .layer (.layer .input (.dense (fun _ _ => -2) (fun _ => 1))) (.relu (fun _ => 1) (fun _ => 1))

/-- Non-vacuity of C28 and C30: method `crown` on `[-1,1]`. -/
example : chainNet.Chain ∧ chainNet.WF ∧
    (boxCrown .ibp (1 / 10000000) .vSlope false (fun _ => -1) (fun _ => 1)).SliverOK chainNet := by
  refine ⟨trivial, by simp [chainNet, Net.WF, Lay.WF], ⟨trivial, fun _ _ => trivial, by simp [boxCrown]⟩, ?_, by simp [boxCrown]⟩
  intro f hf k
  simp [CrownCfg.childInput, boxCrown, CrownCfg.node, Except.map, bind, Except.bind] at hf
  subst hf
  simp [Full.tighten, boxCrown, convert2BackwardMode, boxDomain, getUpperBox, getLowerBox, fuse, getAffine, getIbp, Lay.backward, backwardDense,
    mergeWithPrevious, Back.identity, diagLike, inputTensorsBox]
  norm_num

/-- C28: the default method `crown` is wrong by any amount `M` when a neuron falls in the sliver: same network and box as for
C27. -/
theorem C28_crown_refuted (eps M : ℚ) (he : 0 < eps) (hM : 0 < M) (s : Slope) (uf : Bool) :
    (sliverNet eps M).Chain ∧ (sliverNet eps M).WF ∧
    ∃ p ∈ Box (fun _ : Fin 1 => -(eps / 4)) (fun _ => eps / 4), ∃ out,
      (boxCrown .ibp eps s uf (fun _ => -(eps / 4)) (fun _ => eps / 4)).model (sliverNet eps M) = .ok out ∧
      out.uc 0 + M = (sliverNet eps M).eval p 0 := by
  have hp : (fun _ : Fin 1 => eps / 4) ∈ Box (fun _ : Fin 1 => -(eps / 4)) (fun _ => eps / 4) :=
    fun i => ⟨by linarith, le_rfl⟩
  refine ⟨trivial, by simp [sliverNet, Net.WF, Lay.WF], fun _ => eps / 4, hp, ?_⟩
  obtain ⟨w, b⟩ := sliver_hull eps he s
  have hpos : (0 : ℚ) < 8 * M / eps := by positivity
  have hle : (0:ℚ) ≤ eps / 4 := by linarith
  have hne : eps ≠ 0 := he.ne'
  cases uf
  all_goals
    refine ⟨_, rfl, ?_⟩
    simp [sliverNet, convert2BackwardMode, boxCrown, fuse, mergeWithPrevious, Back.identity, diagLike, Lay.backward, backwardDense,
      backwardRelu, Back.ofDiag, Net.forward, Full.tighten, inputTensorsBox, boxDomain, getUpperBox, getLowerBox,
      getAffine, getIbp, Net.eval, Lay.eval, w, b, max_eq_left hpos.le, min_eq_right hpos.le, max_eq_left hle]
    field_simp
    have h8 : 0 < 8 * M / (4 * eps) := by positivity
    rw [max_eq_left h8.le, min_eq_right h8.le]
    field_simp
    ring

/-- C67: `crown` and `crown-forward-ibp` over a ball are wrong even for the identity: the upper bound is `2 (z + eps)`, below
`z + eps` as soon as `z + eps < 0`; the lower bound is `2 (z - eps)`, above `z - eps` as soon as `z - eps > 0`. -/
theorem C67_ball_crown_refuted {α : Type} [Field α] [LinearOrder α] [IsStrictOrderedRing α] (leps : α) (s : Slope) (uf : Bool)
    (eps z : α) (he : 0 ≤ eps) (hz : z + eps < 0 ∨ 0 < z - eps) :
    ∃ out, (ballCrownIbp leps s uf eps z).model (.input : Net α (Fin 1) (Fin 1)) = .ok out ∧
      out.uc 0 = 2 * (z + eps) ∧ out.lc 0 = 2 * (z - eps) ∧
      ∃ p : Fin 1 → α, (∀ i, |p i - z| ≤ eps) ∧ ¬ (out.lc 0 ≤ p 0 ∧ p 0 ≤ out.uc 0) := by
  refine ⟨_, rfl, ?_⟩
  generalize ho : convert2BackwardMode (ballCrownIbp leps s uf eps z).D (ballCrownIbp leps s uf eps z).stack (ballCrownIbp leps s uf eps z).m
    (ballCrownIbp leps s uf eps z).inp (fuse (ballCrownIbp leps s uf eps z).m (ballCrownIbp leps s uf eps z).inp Back.identity) = out
  have hu : out.uc 0 = 2 * (z + eps) := by
    rw [← ho]
    simp [convert2BackwardMode, ballCrownIbp, fuse, Back.identity, diagLike, ballStacked, inputTensorsBox, getIbp, getAffine]
    ring
  have hl : out.lc 0 = 2 * (z - eps) := by
    rw [← ho]
    simp [convert2BackwardMode, ballCrownIbp, fuse, Back.identity, diagLike, ballStacked, inputTensorsBox, getIbp, getAffine]
    ring
  refine ⟨hu, hl, ?_⟩
  rw [hu, hl]
  rcases hz with hz | hz
  · exact ⟨fun _ => z + eps, fun _ => by simp [abs_of_nonneg he], fun h => by linarith [h.2]⟩
  · exact ⟨fun _ => z - eps, fun _ => by simp [abs_of_nonneg he], fun h => by linarith [h.1]⟩

/-- C67: in affine and hybrid mode (`crown-forward-affine`, `crown-forward-hybrid`) the ball is used through its centre and the
conversion is sound.  Missing with respect to the full claim: ibp mode (refuted) and slivers. -/
theorem C67_ball_affine_partial {ι κ : Type} [Fintype ι] [DecidableEq ι] [Nonempty ι] (m : Mode) (hm : m ≠ .ibp) (leps : ℝ)
    (he : 0 < leps) (slope : Slope) (uf : Bool) (stack : (ι → ℝ) → (ι → ℝ) → ι → ℝ) (eps : ℝ) (q : PVal) (z : ι → ℝ)
    (n : Net ℝ ι κ) (hc : n.Chain) (hn : n.WF)
    (hs : (⟨ballDomain eps q, stack, m, leps, slope, uf, inputTensorsBall m eps q z⟩ : CrownCfg (ι → ℝ) ι ℝ).SliverOK n)
    (p : ι → ℝ) (hp : p ∈ LpBall z eps q) :
    ∃ out, (⟨ballDomain eps q, stack, m, leps, slope, uf, inputTensorsBall m eps q z⟩ : CrownCfg (ι → ℝ) ι ℝ).model n = .ok out ∧
      Valid m false out p (n.eval p) :=
  C28_crown_valid_partial ⟨ballDomain eps q, stack, m, leps, slope, uf, inputTensorsBall m eps q z⟩ he (LpBall z eps q)
    (ball_input_sound m eps q z) (fun h => absurd h hm) n hc hn hs p hp (C27_input_ball m eps q z p hp)

/-- C67: a point of the ball `|p + 10| ≤ 1` escapes the bounds of `crown`. -/
example : ∃ out, (ballCrownIbp (1 / 10000000) .vSlope false 1 (-10)).model (.input : Net ℚ (Fin 1) (Fin 1)) = .ok out ∧
    out.uc 0 = 2 * (-10 + 1) ∧ out.lc 0 = 2 * (-10 - 1) ∧
    ∃ p : Fin 1 → ℚ, (∀ i, |p i - (-10)| ≤ 1) ∧ ¬ (out.lc 0 ≤ p 0 ∧ p 0 ≤ out.uc 0) :=
  C67_ball_crown_refuted _ _ _ _ _ (by norm_num) (by norm_num)

/-- C67: `crown-forward-ibp` on a ReLU over the ball of radius 2 around 1.  The ReLU is given the interval `[-1, 3]`, but its lines are then
evaluated on the two stacked rows: the bounds are `21/4` and `-2` for outputs in `[0, 3]`. -/
theorem C67_ball_crown_relu : ∃ out, (ballCrownIbp (1 / 10000000) .vSlope true 2 1).model
    (.layer .input (.relu (fun _ => 1) fun _ => 1) : Net ℚ (Fin 1) (Fin 1)) = .ok out ∧ out.uc 0 = 21 / 4 ∧ out.lc 0 = -2 :=
  ⟨_, rfl, by decide +kernel, by decide +kernel⟩

section Exact
variable {ι κ κ' ν α : Type} [Fintype ι] [DecidableEq ι] [Field α] [LinearOrder α] [IsStrictOrderedRing α]

/-- Upper and lower bounds agree and are the function `t`. -/
def Back.Exact [Fintype κ] (b : Back κ κ' α) (t : (κ → α) → κ' → α) : Prop :=
  b.wu = b.wl ∧ b.bu = b.bl ∧ ∀ y k, affEval (fun i => b.wu i k) (b.bu k) y = t y k

/-- A layer other than a ReLU. -/
def Lay.IsLinear : Lay α κ κ' → Prop
  | .relu _ _ => False
  | _ => True

/-- A chain of layers without ReLU. -/
def Net.Linear : {κ : Type} → Net α ι κ → Prop
  | _, .input => True
  | _, @Net.layer _ _ _ _ _ _ _ n l => n.Linear ∧ l.IsLinear
  | _, .merge _ _ _ => False

omit [DecidableEq ι] in
theorem exact_merge [Fintype κ] (prev : Back ι κ α) (b : Back κ ν α) (f : (ι → α) → κ → α) (g : (κ → α) → ν → α)
    (h1 : prev.Exact f) (h2 : b.Exact g) : (mergeWithPrevious prev b).Exact (fun x => g (f x)) := by
  obtain ⟨w, bw, w', bw'⟩ := prev
  obtain ⟨v, bv, v', bv'⟩ := b
  obtain ⟨e1, e2, e3⟩ := h1
  obtain ⟨d1, d2, d3⟩ := h2
  simp only at e1 e2 e3 d1 d2 d3
  subst e1; subst e2; subst d1; subst d2
  refine ⟨?_, ?_, fun x n => ?_⟩
  · funext i n; rw [(C26_merge_exact w bw v bv i n).1, (C26_merge_exact w bw v bv i n).2.1]
  · funext n
    simp only [mergeWithPrevious]
  · have hh := holds_merge ⟨w, bw, w, bw⟩ ⟨v, bv, v, bv⟩ x (f x) (g (f x)) (fun k => by simp only [e3, le_refl, and_self])
      (fun k => by simp only [d3, le_refl, and_self]) n
    have a : (mergeWithPrevious ⟨w, bw, w, bw⟩ ⟨v, bv, v, bv⟩).wl = (mergeWithPrevious ⟨w, bw, w, bw⟩ ⟨v, bv, v, bv⟩).wu := rfl
    have b : (mergeWithPrevious ⟨w, bw, w, bw⟩ ⟨v, bv, v, bv⟩).bl = (mergeWithPrevious ⟨w, bw, w, bw⟩ ⟨v, bv, v, bv⟩).bu := rfl
    rw [a, b] at hh
    exact le_antisymm hh.1 hh.2

theorem exact_of_holds [Fintype κ] (b : Back κ κ' α) (t : (κ → α) → κ' → α) (h1 : b.wu = b.wl) (h2 : b.bu = b.bl)
    (h : ∀ y, b.Holds y (t y)) : b.Exact t :=
  ⟨h1, h2, fun y k => le_antisymm (by rw [h1, h2]; exact (h y k).1) (h y k).2⟩

theorem exact_identity : (Back.identity : Back ι ι α).Exact id :=
  exact_of_holds _ _ rfl rfl holds_identity

theorem exact_layer {X : Type} [Fintype κ] [DecidableEq κ] (D : PertDomain X ι α) (m : Mode) (eps : α) (slope : Slope) (l : Lay α κ κ')
    (hl : l.IsLinear) (f : Full X ι κ α) : (l.backward D m eps slope f).Exact l.eval := by
  cases l with
  | dense kernel bias => exact exact_of_holds _ _ rfl rfl (holds_dense kernel bias)
  | linear L kernel bias => exact exact_of_holds _ _ rfl rfl (holds_conv L kernel bias)
  | relu gf gb => exact hl.elim
  | batchNorm gamma beta mean sd => exact exact_of_holds _ _ rfl rfl (holds_batchNorm gamma beta mean sd)
  | reshape e => exact exact_of_holds _ _ rfl rfl (holds_reindex e)
  | skip => exact exact_of_holds _ _ rfl rfl holds_identity

theorem exact_inst (i1 i2 : Fintype κ) (b : Back κ κ' α) (t : (κ → α) → κ' → α)
    (h : @Back.Exact κ κ' α _ i1 b t) : @Back.Exact κ κ' α _ i2 b t := by
  rw [Subsingleton.elim i2 i1]; exact h

theorem exact_fuse (m : Mode) (xmin xmax : ι → α) (b : Back ι ν α) (t : (ι → α) → ν → α) (h : b.Exact t) :
    (fuse m (inputTensorsBox m xmin xmax) b).Exact t := by
  unfold fuse
  split
  · rename_i ha
    have e : (⟨(inputTensorsBox m xmin xmax).wu, (inputTensorsBox m xmin xmax).bu, (inputTensorsBox m xmin xmax).wl,
        (inputTensorsBox m xmin xmax).bl⟩ : Back ι ι α) = Back.identity := by
      simp only [inputTensorsBox, ha, if_true, Back.identity]
      rfl
    rw [e]
    exact exact_merge _ _ id t exact_identity h
  · exact h

theorem node_exact (m : Mode) (eps : α) (slope : Slope) (uf : Bool) (xmin xmax : ι → α) {κ : Type} (n : Net α ι κ) (hc : n.Linear) :
    (∃ b, ((boxCrown m eps slope uf xmin xmax).node n).first = .ok b ∧ b.Exact (fun p => n.eval p)) ∧
    ∀ [Fintype κ], ∀ (ν : Type) (b : Back κ ν α) (t : (κ → α) → ν → α), b.Exact t →
      ∃ b', ((boxCrown m eps slope uf xmin xmax).node n).next ν b = .ok b' ∧ b'.Exact (fun p => t (n.eval p)) := by
  induction n with
  | input =>
    have key := fun (ν : Type) (b : Back ι ν α) t h => exact_fuse m xmin xmax _ t (exact_merge Back.identity b id t exact_identity h)
    refine ⟨⟨_, rfl, exact_fuse m xmin xmax _ _ exact_identity⟩, ?_⟩
    intro inst ν b t h
    exact ⟨_, rfl, key ν b t (exact_inst _ _ _ _ h)⟩
  | merge op n0 n1 _ _ => exact hc.elim
  | @layer κ₁ κ₂ _ _ _ n l ih =>
    obtain ⟨⟨b0, hb0, -⟩, hnext⟩ := ih hc.1
    have hchild : ∃ f, (boxCrown m eps slope uf xmin xmax).childInput n ((boxCrown m eps slope uf xmin xmax).node n) = .ok f := by
      unfold CrownCfg.childInput
      split
      · exact ⟨_, rfl⟩
      · exact ⟨_, by rw [hb0]; rfl⟩
    obtain ⟨f, hf⟩ := hchild
    have hl := exact_layer (boxCrown m eps slope uf xmin xmax).D (boxCrown m eps slope uf xmin xmax).m
      (boxCrown m eps slope uf xmin xmax).eps (boxCrown m eps slope uf xmin xmax).slope l hc.2 f
    constructor
    · obtain ⟨b', h1, h2⟩ := hnext κ₂ _ _ hl
      refine ⟨b', ?_, h2⟩
      simp only [CrownCfg.node, hf, Except.map, bind, Except.bind]
      exact h1
    · have key := fun (ν : Type) (b : Back κ₂ ν α) t h =>
        hnext ν _ _ (exact_merge _ b l.eval t hl h)
      intro inst ν b t h
      obtain ⟨b', h1, h2⟩ := key ν b t (exact_inst _ _ _ _ h)
      refine ⟨b', ?_, h2⟩
      simp only [CrownCfg.node, hf, Except.map, bind, Except.bind]
      exact h1

/-- C71: on a chain of layers without ReLU, backward bounds over a box are exact: attained, hence never looser than any other
sound bounds.  Missing with respect to the full claim: ReLU, refuted below. -/
theorem C71_linear_exact_partial (m : Mode) (hm : getIbp m = true) (eps : α) (slope : Slope) (uf : Bool) (xmin xmax : ι → α)
    (hx : ∀ i, xmin i ≤ xmax i) (n : Net α ι κ) (hc : n.Linear) (k : κ) :
    ∃ out, (boxCrown m eps slope uf xmin xmax).model n = .ok out ∧
      (∃ p ∈ Box xmin xmax, n.eval p k = out.uc k) ∧ ∃ p ∈ Box xmin xmax, n.eval p k = out.lc k := by
  obtain ⟨⟨b, h1, h2, h3, h4⟩, -⟩ := node_exact m eps slope uf xmin xmax n hc
  refine ⟨_, by rw [CrownCfg.model, h1]; rfl, ?_⟩
  have hx0 : (if m = .ibp then (boxCrown m eps slope uf xmin xmax).stack (boxCrown m eps slope uf xmin xmax).inp.lc
      (boxCrown m eps slope uf xmin xmax).inp.uc else (boxCrown m eps slope uf xmin xmax).inp.x) = (xmin, xmax) := by
    split
    · simp [boxCrown, inputTensorsBox, hm]
    · rfl
  have ex := (C01_box_sound_and_exact xmin xmax (fun i => b.wu i k) (b.bu k)).2 hx
  obtain ⟨⟨p, hp, -, ep⟩, ⟨q, hq, -, eq⟩⟩ := ex
  constructor
  · refine ⟨p, hp, ?_⟩
    refine (h4 _ k).symm.trans ?_
    simp only [convert2BackwardMode, show (boxCrown m eps slope uf xmin xmax).m = m from rfl, hm, if_true, hx0]
    exact ep
  · refine ⟨q, hq, ?_⟩
    refine (h4 _ k).symm.trans ?_
    simp only [convert2BackwardMode, show (boxCrown m eps slope uf xmin xmax).m = m from rfl, hm, if_true, hx0, ← h2, ← h3]
    exact eq

end Exact

/-- C71: with a ReLU the claim fails: on `[-1, 2]` the lower bound of `ReLU(x)` is `-1` for every backward method in ibp mode and
`0` for forward-ibp. -/
theorem C71_crown_inside_ibp_refuted (uf : Bool) :
    let n : Net ℚ (Fin 1) (Fin 1) := .layer .input (.relu (fun _ => 1) (fun _ => 1))
    ∃ out, (boxCrown .ibp (1 / 10000000) .vSlope uf (fun _ => -1) (fun _ => 2)).model n = .ok out ∧ out.lc 0 = -1 ∧
      (n.forward boxDomain .ibp (1 / 10000000) .vSlope (inputTensorsBox .ibp (fun _ => -1) (fun _ => 2))).lc 0 = 0 := by
  cases uf <;> refine ⟨_, rfl, ?_, ?_⟩ <;> decide +kernel

/-- The hypotheses of C26 to C32 hold for these two networks: `relu (1 - 2 x) + x`, and `relu (1 - 2 x)` as a chain. -/
theorem exampleNet_ok (m : Mode) : exampleNet.WF ∧ exampleNet.NoMultiply ∧
    exampleNet.SliverOK boxDomain m (1 / 10000000) .vSlope (inputTensorsBox m (fun _ => -1) (fun _ => 1)) := by
  refine ⟨by simp [exampleNet, Net.WF, Lay.WF], by simp [exampleNet, Net.NoMultiply], ⟨⟨trivial, trivial⟩, ?_⟩, trivial, trivial⟩
  intro ha k
  cases m
  · simp [getAffine] at ha
  all_goals
    simp [Full.tighten, Net.forward, Lay.forward, denseT, inputTensorsBox, boxDomain, getUpperBox, getLowerBox, getAffine, getIbp]
    norm_num

theorem chainNet_ok : chainNet.Chain ∧ chainNet.WF ∧ (boxCrown .ibp (1 / 10000000) .vSlope false (fun _ => -1) (fun _ => 1)).SliverOK chainNet := by
  refine ⟨trivial, by simp [chainNet, Net.WF, Lay.WF], ⟨trivial, fun _ _ => trivial, by simp [boxCrown]⟩, ?_, by simp [boxCrown]⟩
  intro f hf k
  simp [CrownCfg.childInput, boxCrown, CrownCfg.node, Except.map, bind, Except.bind] at hf
  subst hf
  simp [Full.tighten, boxCrown, convert2BackwardMode, boxDomain, getUpperBox, getLowerBox, fuse, getAffine, getIbp, Lay.backward, backwardDense,
    mergeWithPrevious, Back.identity, diagLike, inputTensorsBox]
  norm_num

/-- C26: the bounds `2 x - 1 ≤ y ≤ 2 x + 1` and `-y ≤ t ≤ 1 - y` at `x = 3`, `y = 6`, `t = -11/2`. -/
example : (mergeWithPrevious (⟨fun _ _ => 2, fun _ => 1, fun _ _ => 2, fun _ => -1⟩ : Back (Fin 1) (Fin 1) ℚ)
    (⟨fun _ _ => -1, fun _ => 1, fun _ _ => -1, fun _ => 0⟩ : Back (Fin 1) (Fin 1) ℚ)).Holds (fun _ => 3) fun _ => -11 / 2 :=
  C26_merge_with_previous_sound _ _ _ (fun _ => 6) _ (by intro k; simp [affEval]; norm_num) (by intro k; simp [affEval]; norm_num)

/-- C27 for every mode, by the general statement and by that of a box. -/
example (m : Mode) (p : Fin 1 → ℚ) (hp : p ∈ Box (fun _ => -1) fun _ => 1) :
    Valid m false (exampleNet.forward boxDomain m (1 / 10000000) .vSlope (inputTensorsBox m (fun _ => -1) fun _ => 1)) p (exampleNet.eval p) :=
  C27_forward_valid_partial boxDomain m _ (by norm_num) .vSlope _ (Box (fun _ => -1) fun _ => 1) (boxDomain_sound _ _) _ (exampleNet_ok m).1 (exampleNet_ok m).2.2 p hp
    (C27_input_box m _ _ p hp)

example (m : Mode) (p : Fin 1 → ℚ) (hp : p ∈ Box (fun _ => -1) fun _ => 1) :
    Valid m false (exampleNet.forward boxDomain m (1 / 10000000) .vSlope (inputTensorsBox m (fun _ => -1) fun _ => 1)) p (exampleNet.eval p) :=
  C27_box_partial m _ (by norm_num) .vSlope _ _ _ (exampleNet_ok m).1 (exampleNet_ok m).2.2 p hp

/-- With constant bounds the box may be of any size: here `relu (1 - 2 x) + x ≤ 1 + 1` on `[0, 1]`, and on an empty width. -/
example (p : Fin 1 → ℚ) (hp : p ∈ Box (fun _ => 0) fun _ => 1) : exampleNet.eval p 0 ≤ 2 :=
  (C27_box_ibp (1 / 10000000) (by norm_num) .vSlope _ _ exampleNet (exampleNet_ok .ibp).1 p hp 0).2.trans (by decide +kernel)

example (p : Fin 1 → ℚ) (hp : p ∈ Box (fun _ => 0) fun _ => 1) : exampleNet.eval p 0 ≤ 2 :=
  (C27_forward_valid_ibp boxDomain (1 / 10000000) (by norm_num) .vSlope (inputTensorsBox .ibp (fun _ => 0) fun _ => 1) (Box (fun _ => 0) fun _ => 1)
    (boxDomain_sound _ _) exampleNet (exampleNet_ok .ibp).1 p hp (C27_input_box .ibp _ _ p hp) 0).2.trans (by decide +kernel)

/-- A ball: `3 x - y` on the Euclidean ball of radius 2 around `(1, 1)`. -/
example (m : Mode) (p : Fin 2 → ℝ) (hp : p ∈ LpBall ![1, 1] 2 (.fin 2)) :
    Valid m false ((Net.layer .input (.dense (fun i (_ : Fin 1) => ![3, -1] i) fun _ => 0) : Net ℝ (Fin 2) (Fin 1)).forward (ballDomain 2 (.fin 2)) m
      (1 / 10000000) .vSlope (inputTensorsBall m 2 (.fin 2) ![1, 1])) p fun _ => (∑ i, ![3, -1] i * p i) + 0 :=
  C27_ball_partial m (1 / 10000000) (by norm_num) .vSlope 2 (.fin 2) ![1, 1] (.layer .input (.dense (fun i (_ : Fin 1) => ![3, -1] i) fun _ => 0))
    (by simp [Net.WF, Lay.WF]) (by exact ⟨trivial, trivial⟩) p hp

/-- With constant bounds a relu needs no condition on the ball. -/
example (p : Fin 2 → ℝ) (hp : p ∈ LpBall ![1, 1] 2 (.fin 2)) :
    max (p 0) 0 ≤ ((Net.layer .input (.relu (fun _ => 1) fun _ => 1) : Net ℝ (Fin 2) (Fin 2)).forward (ballDomain 2 (.fin 2)) .ibp
      (1 / 10000000) .vSlope (inputTensorsBall .ibp 2 (.fin 2) ![1, 1])).uc 0 :=
  (C27_ball_ibp (1 / 10000000) (by norm_num) .vSlope 2 (.fin 2) ![1, 1] (.layer .input (.relu (fun _ => 1) fun _ => 1)) (by simp [Net.WF, Lay.WF]) p hp 0).2

example (m : Mode) (p : Fin 2 → ℝ) (hp : p ∈ LpBall ![1, 1] 2 (.fin 1)) : Valid m false (inputTensorsBall m 2 (.fin 1) ![1, 1]) p p :=
  C27_input_ball m 2 (.fin 1) _ p hp

/-- C28, for the crown model of `relu (1 - 2 x)`, by the general statement and by that of a box; C30 with the back matrix `(1, -1)`. -/
example (p : Fin 1 → ℚ) (hp : p ∈ Box (fun _ => -1) fun _ => 1) :
    ∃ out, (boxCrown .ibp (1 / 10000000) .vSlope false (fun _ => -1) fun _ => 1).model chainNet = .ok out ∧ Valid .ibp false out p (chainNet.eval p) :=
  C28_box_partial .ibp _ (by norm_num) .vSlope false _ _ _ chainNet_ok.1 chainNet_ok.2.1 chainNet_ok.2.2 p hp

example (p : Fin 1 → ℚ) (hp : p ∈ Box (fun _ => -1) fun _ => 1) :
    ∃ out, (boxCrown .ibp (1 / 10000000) .vSlope false (fun _ => -1) fun _ => 1).model chainNet = .ok out ∧ Valid .ibp false out p (chainNet.eval p) :=
  C28_crown_valid_partial (boxCrown .ibp (1 / 10000000) .vSlope false (fun _ => -1) fun _ => 1) (by norm_num [boxCrown]) (Box (fun _ => -1) fun _ => 1)
    (boxDomain_sound _ _) (boxCrown_stack _ _ _ _ _ _) _ chainNet_ok.1 chainNet_ok.2.1 chainNet_ok.2.2 p hp (C27_input_box .ibp _ _ p hp)

example (p : Fin 1 → ℚ) (hp : p ∈ Box (fun _ => -1) fun _ => 1) :
    ∃ out, (boxCrown .ibp (1 / 10000000) .vSlope false (fun _ => -1) fun _ => 1).modelBack chainNet (fun _ (j : Fin 2) => ![1, -1] j) = .ok out ∧
      Valid .ibp false out p fun j => ∑ k, chainNet.eval p k * ![1, -1] j :=
  C30_back_bounds_partial (boxCrown .ibp (1 / 10000000) .vSlope false (fun _ => -1) fun _ => 1) (by norm_num [boxCrown]) (Box (fun _ => -1) fun _ => 1)
    (boxDomain_sound _ _) (boxCrown_stack _ _ _ _ _ _) _ chainNet_ok.1 chainNet_ok.2.1 chainNet_ok.2.2 _ p hp (C27_input_box .ibp _ _ p hp)

/-- C58: the network with an Add layer. -/
example (uf : Bool) : (boxCrown .ibp (1 / 10000000) .vSlope uf (fun _ => -1) fun _ => 1).model exampleNet = .error .notImplemented := by
  obtain ⟨op, hop, h | h⟩ := C58_exception (boxCrown .ibp (1 / 10000000) .vSlope uf (fun _ => -1) fun _ => (1 : ℚ)) exampleNet id
  · exact h.2
  · simp [exampleNet, Net.mergeOps] at hop; exact absurd (.inl hop) h.1

example : (boxCrown .ibp (1 / 10000000) .vSlope true (fun _ => -1) fun _ => 1).model exampleNet = .error .notImplemented :=
  (C58_forward_exceptions (boxCrown .ibp (1 / 10000000) .vSlope true (fun _ => -1) fun _ => (1 : ℚ)) rfl exampleNet .add rfl).1 (.inl rfl)

/-- C29: the constant tensors of `x ∈ [-1, 1]` read as affine ones with zero weights, and the backward bounds `x ≤ t ≤ x + 1`. -/
example (m : Mode) (p q : Fin 1 → ℚ) (hp : p ∈ Box (fun _ => -1) fun _ => 1) : Valid m false (convert2ModeDummy (oneInput (-1) 1)) q p :=
  C29_dummy_valid_partial m _ p q fun k => hp k

example (m : Mode) (p t : Fin 1 → ℚ) (hp : p ∈ Box (fun _ => -1) fun _ => 1) (ht : ∀ k, p k ≤ t k ∧ t k ≤ p k + 1) :
    Valid m false (convert2BackwardMode boxDomain Prod.mk m (inputTensorsBox m (fun _ => -1) fun _ => 1)
      ⟨fun _ _ => 1, fun _ => 1, fun _ _ => 1, fun _ => 0⟩) p t :=
  C29_convert2BackwardMode_valid boxDomain Prod.mk m _ (Box (fun _ => -1) fun _ => 1) (fun _ => boxDomain_sound _ _) (fun h => by subst h; exact boxDomain_sound _ _) p hp _ t
    fun k => by rw [Subsingleton.elim k 0]; simpa [affEval] using ht 0

/-- C31 and C32 for `relu (1 - 2 x) + x`. -/
example : (exampleNet.forward boxDomain .hybrid (1 / 10000000) .vSlope (inputTensorsBox .hybrid (fun _ => -1) fun _ => 1)).uc 0 ≤
    (exampleNet.forward boxDomain .ibp (1 / 10000000) .vSlope (inputTensorsBox .ibp (fun _ => -1) fun _ => 1)).uc 0 :=
  (C31_box _ (by norm_num) .vSlope _ _ exampleNet (exampleNet_ok .ibp).1 (exampleNet_ok .ibp).2.1 0).2

example : (exampleNet.forward boxDomain .hybrid (1 / 10000000) .vSlope (inputTensorsBox .hybrid (fun _ => -1) fun _ => 1)).uc 0 ≤
      (exampleNet.forward boxDomain .ibp (1 / 10000000) .zSlope (inputTensorsBox .ibp (fun _ => -2) fun _ => 3)).uc 0 :=
  (C31_hybrid_inside_ibp boxDomain _ (by norm_num) .vSlope .zSlope _ _ (by decide +kernel) exampleNet (exampleNet_ok .ibp).1 (exampleNet_ok .ibp).2.1 0).2

example : (exampleNet.forward boxDomain .hybrid (1 / 10000000) .vSlope (inputTensorsBox .hybrid (fun _ => -1) fun _ => 1)).uc 0 ≤
    (exampleNet.forward boxDomain .ibp (1 / 10000000) .vSlope (inputTensorsBox .ibp (fun _ => -1) fun _ => 1)).uc 0 :=
  (C31_box_with_multiply _ (by norm_num) .vSlope _ _ (by decide +kernel) exampleNet (exampleNet_ok .hybrid).1 (exampleNet_ok .hybrid).2.2 0).2

example : (exampleNet.forward boxDomain .ibp (1 / 10000000) .vSlope (inputTensorsBox .ibp (fun _ => 0) fun _ => 1)).uc 0 ≤
    (exampleNet.forward boxDomain .ibp (1 / 10000000) .vSlope (inputTensorsBox .ibp (fun _ => -1) fun _ => 1)).uc 0 :=
  (C32_ibp_monotone _ (by norm_num) .vSlope _ _ _ _ (by decide +kernel) (fun p hp i => ⟨by linarith [(hp i).1], (hp i).2⟩) exampleNet
    (exampleNet_ok .ibp).1 0).2

/-- C67: a crown model of `2 x` on a ball, with affine outputs. -/
example (p : Fin 1 → ℝ) (hp : p ∈ LpBall (fun _ => 1) 2 (.fin 2)) (stack : (Fin 1 → ℝ) → (Fin 1 → ℝ) → Fin 1 → ℝ) :
    ∃ out, (⟨ballDomain 2 (.fin 2), stack, .affine, 1 / 10000000, .vSlope, false, inputTensorsBall .affine 2 (.fin 2) fun _ => 1⟩ :
      CrownCfg (Fin 1 → ℝ) (Fin 1) ℝ).model (.layer .input (.dense (fun _ (_ : Fin 1) => 2) fun _ => 0)) = .ok out ∧
      Valid .affine false out p fun _ => (∑ i, 2 * p i) + 0 :=
  C67_ball_affine_partial .affine (by decide) _ (by norm_num) .vSlope false stack 2 (.fin 2) _
    (.layer .input (.dense (fun _ (_ : Fin 1) => 2) fun _ => 0)) trivial (by simp [Net.WF, Lay.WF]) (by exact ⟨trivial, fun _ _ => trivial, by simp⟩) p hp

/-- C71: the linear network `-3 (2 x + 1)` on `[-1, 1]`. -/
example : ∃ out, (boxCrown .ibp (1 / 10000000) .vSlope false (fun _ => -1) fun _ => 1).model
    (.layer (.layer .input (.dense (fun _ (_ : Fin 1) => 2) fun _ => 1)) (.dense (fun _ _ => -3) fun _ => 0) : Net ℚ (Fin 1) (Fin 1)) = .ok out ∧
    ∃ p ∈ Box (fun _ => -1) fun _ => 1, (∑ _i : Fin 1, -3 * ((∑ j : Fin 1, 2 * p j) + 1)) + 0 = out.uc 0 := by
  obtain ⟨out, h, hu, _⟩ := C71_linear_exact_partial .ibp rfl (1 / 10000000) .vSlope false (fun _ => -1) (fun _ => 1) (by decide +kernel)
    (.layer (.layer .input (.dense (fun _ (_ : Fin 1) => 2) fun _ => 1)) (.dense (fun _ _ => -3) fun _ => 0) : Net ℚ (Fin 1) (Fin 1))
    (by exact ⟨⟨trivial, trivial⟩, trivial⟩) 0
  exact ⟨out, h, hu⟩

/-- Non-vacuity of C71: two Dense layers. -/
example : (Net.layer (.layer .input (.dense (fun _ (_ : Fin 2) => 2) (fun _ => 1))) (.dense (fun _ _ => -3) (fun _ => 0)) :
    Net ℚ (Fin 1) (Fin 1)).Linear := ⟨⟨trivial, trivial⟩, trivial⟩

end Decomon
