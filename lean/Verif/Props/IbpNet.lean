import Verif.Lemmas.IbpNet
import Verif.Props.Refine
import Mathlib.Topology.MetricSpace.ProperSpace

/-! Property C108: forward interval propagation through networks of all the supported layers. -/

namespace Decomon

section
variable {X ι κ : Type} [Fintype ι]

/-- C108: soundness over any domain whose input tensors are valid. -/
theorem C108_forward_sound (D : PertDomain X ι ℝ) (eps : ℝ) (he : 0 < eps) (slope : Slope) (inp : Full X ι ι ℝ) (R : Set (ι → ℝ))
    (hD : D.Sound inp.x R) (n : RNet ι κ) (hn : n.WF) (p : ι → ℝ) (hp : p ∈ R) (hi : ∀ i, inp.lc i ≤ p i ∧ p i ≤ inp.uc i) (k : κ) :
    (n.forward D eps slope inp).lc k ≤ n.eval p k ∧ n.eval p k ≤ (n.forward D eps slope inp).uc k :=
  (RNet.forward_valid D eps he slope inp R hD p hp ⟨fun _ => hi, by simp [getAffine], by simp⟩ n hn).const rfl k

variable [DecidableEq ι]

/-- C108: over a box. -/
theorem C108_box (eps : ℝ) (he : 0 < eps) (slope : Slope) (n : RNet ι κ) (hn : n.WF) (b : BoxOf ι ℝ) (p : ι → ℝ) (hp : p ∈ Box b.1 b.2) (k : κ) :
    (n.onBox eps slope b).lc k ≤ n.eval p k ∧ n.eval p k ≤ (n.onBox eps slope b).uc k :=
  C108_forward_sound boxDomain eps he slope _ (Box b.1 b.2) (boxDomain_sound _ _) n hn p hp
    ((C27_input_box .ibp b.1 b.2 p hp).const rfl) k

/-- C108: over an `Lp` ball. -/
theorem C108_ball [Nonempty ι] (leps : ℝ) (he : 0 < leps) (slope : Slope) (eps : ℝ) (q : PVal) (z : ι → ℝ) (n : RNet ι κ) (hn : n.WF)
    (p : ι → ℝ) (hp : p ∈ LpBall z eps q) (k : κ) :
    (n.forward (ballDomain eps q) leps slope (inputTensorsBall .ibp eps q z)).lc k ≤ n.eval p k ∧
    n.eval p k ≤ (n.forward (ballDomain eps q) leps slope (inputTensorsBall .ibp eps q z)).uc k :=
  C108_forward_sound (ballDomain eps q) leps he slope _ (LpBall z eps q) (ball_input_sound .ibp eps q z) n hn p hp
    ((C27_input_ball .ibp eps q z p hp).const rfl) k

/-- C108: shrinking the box never loosens the bounds. -/
theorem C108_monotone (eps : ℝ) (he : 0 < eps) (slope slope' : Slope) (n : RNet ι κ) (hn : n.WF) (b c : BoxOf ι ℝ) (hc : ∀ i, c.1 i ≤ c.2 i)
    (hb : ∀ i, b.1 i ≤ c.1 i ∧ c.2 i ≤ b.2 i) (k : κ) :
    (n.onBox eps slope b).lc k ≤ (n.onBox eps slope' c).lc k ∧ (n.onBox eps slope' c).uc k ≤ (n.onBox eps slope b).uc k := by
  refine RNet.forward_tighter eps slope' slope (fun i => ?_) n hn (fun κ n hn k => ?_) k
  · simpa [inputTensorsBox, getIbp] using hb i
  · have := C108_box eps he slope' n hn c c.1 (fun i => ⟨le_rfl, hc i⟩) k
    exact this.1.trans this.2

/-- C108: on a single point both bounds are the prediction. -/
theorem C108_point (eps : ℝ) (slope : Slope) (n : RNet ι κ) (p : ι → ℝ) (k : κ) :
    (n.onBox eps slope (p, p)).lc k = n.eval p k ∧ (n.onBox eps slope (p, p)).uc k = n.eval p k :=
  RNet.forward_pinned boxDomain eps slope _ p (boxDomain_point p) (fun i => by simp [inputTensorsBox, getIbp]) n k

theorem RNet.onBox_cont (eps : ℝ) (slope : Slope) (n : RNet ι κ) :
    ContFull fun b : BoxOf ι ℝ => n.onBox eps slope b :=
  RNet.forward_cont boxDomain eps slope _ (fun i => by
    simp only [inputTensorsBox, getIbp, if_true]
    constructor <;> fun_prop) n

/-- C108: the bounds depend continuously on the box.  In particular they converge to the prediction when the box shrinks to a point. -/
theorem C108_shrink (eps : ℝ) (slope : Slope) (n : RNet ι κ) (p : ι → ℝ) (k : κ) (d : ℝ) (hd : 0 < d) :
    ∃ w, 0 < w ∧ ∀ b : BoxOf ι ℝ, (∀ i, |b.1 i - p i| < w ∧ |b.2 i - p i| < w) →
      |(n.onBox eps slope b).lc k - n.eval p k| < d ∧ |(n.onBox eps slope b).uc k - n.eval p k| < d := by
  have hc := n.onBox_cont eps slope k
  obtain ⟨w1, p1, h1⟩ := Metric.continuous_iff.1 hc.1 (p, p) d hd
  obtain ⟨w2, p2, h2⟩ := Metric.continuous_iff.1 hc.2 (p, p) d hd
  rw [(C108_point eps slope n p k).1] at h1
  rw [(C108_point eps slope n p k).2] at h2
  have key : ∀ w, 0 < w → ∀ b : BoxOf ι ℝ, (∀ i, |b.1 i - p i| < w ∧ |b.2 i - p i| < w) → dist b (p, p) < w := by
    intro w hw b h
    rw [Prod.dist_eq]
    exact max_lt ((dist_pi_lt_iff hw).2 fun i => by rw [Real.dist_eq]; exact (h i).1) ((dist_pi_lt_iff hw).2 fun i => by rw [Real.dist_eq]; exact (h i).2)
  refine ⟨min w1 w2, lt_min p1 p2, fun b hb => ⟨?_, ?_⟩⟩
  · have := h1 b (key w1 p1 b fun i => ⟨(hb i).1.trans_le (min_le_left _ _), (hb i).2.trans_le (min_le_left _ _)⟩)
    rwa [Real.dist_eq] at this
  · have := h2 b (key w2 p2 b fun i => ⟨(hb i).1.trans_le (min_le_right _ _), (hb i).2.trans_le (min_le_right _ _)⟩)
    rwa [Real.dist_eq] at this

/-- Narrow sub-boxes of a box give narrow bounds, uniformly. -/
theorem RNet.narrow (eps : ℝ) (slope : Slope) (n : RNet ι κ) (k : κ) (b : BoxOf ι ℝ) (d : ℝ) (hd : 0 < d) :
    ∃ w, 0 < w ∧ ∀ c : BoxOf ι ℝ, (∀ i, c.1 i ≤ c.2 i) → (∀ i, b.1 i ≤ c.1 i ∧ c.2 i ≤ b.2 i) → (∀ i, c.2 i - c.1 i < w) →
      (n.onBox eps slope c).uc k - (n.onBox eps slope c).lc k ≤ d := by
  have hc := n.onBox_cont eps slope k
  have hf : Continuous fun c : BoxOf ι ℝ => (n.onBox eps slope c).uc k - (n.onBox eps slope c).lc k := hc.2.sub hc.1
  have hK : IsCompact (Set.Icc (b.1, b.1) (b.2, b.2) : Set (BoxOf ι ℝ)) := isCompact_Icc
  have hu := hK.uniformContinuousOn_of_continuous hf.continuousOn
  rw [Metric.uniformContinuousOn_iff] at hu
  obtain ⟨w, hw, h⟩ := hu d hd
  refine ⟨w, hw, fun c o s hn => ?_⟩
  have m1 : c ∈ (Set.Icc (b.1, b.1) (b.2, b.2) : Set (BoxOf ι ℝ)) :=
    ⟨⟨fun i => (s i).1, fun i => (s i).1.trans (o i)⟩, ⟨fun i => (o i).trans (s i).2, fun i => (s i).2⟩⟩
  have m2 : (c.1, c.1) ∈ (Set.Icc (b.1, b.1) (b.2, b.2) : Set (BoxOf ι ℝ)) :=
    ⟨⟨fun i => (s i).1, fun i => (s i).1⟩, ⟨fun i => (o i).trans (s i).2, fun i => (o i).trans (s i).2⟩⟩
  have := h c m1 (c.1, c.1) m2 (by
    rw [Prod.dist_eq]
    refine max_lt (by simpa using hw) ((dist_pi_lt_iff hw).2 fun i => ?_)
    rw [Real.dist_eq, abs_of_nonneg (sub_nonneg.2 (o i))]
    exact hn i)
  rw [(C108_point eps slope n c.1 k).1, (C108_point eps slope n c.1 k).2, sub_self, Real.dist_eq, sub_zero] at this
  exact (le_abs_self _).trans this.le

end

section
variable {n : ℕ} {κ : Type}

theorem RNet.narrow_refine (eps : ℝ) (s : Slope) (N : RNet (Fin (n + 1)) κ) (k : κ) (b : BoxOf (Fin (n + 1)) ℝ) (hb : ∀ i, b.1 i ≤ b.2 i) (d : ℝ) (hd : 0 < d) :
    ∃ K, ∀ nSub, K ≤ nSub → ∀ c ∈ refineBoxes true nSub b, (N.onBox eps s c).uc k - (N.onBox eps s c).lc k ≤ d := by
  obtain ⟨w, hw, h⟩ := N.narrow eps s k b d hd
  have hW : ∀ i, b.2 i - b.1 i ≤ ∑ j, (b.2 j - b.1 j) := fun i =>
    Finset.single_le_sum (f := fun j => b.2 j - b.1 j) (fun j _ => sub_nonneg.2 (hb j)) (Finset.mem_univ i)
  generalize ∑ j, (b.2 j - b.1 j) = W at *
  obtain ⟨e, he⟩ := pow_unbounded_of_one_lt (W / w) (one_lt_two (α := ℝ))
  refine ⟨2 ^ (e * (n + 1)), fun nSub hn c hc => ?_⟩
  have g := (covers_refine nSub b).good hb c hc
  refine h c g.1 g.2 fun i => (C35_widths e nSub hn b hb W hW c hc i).trans_lt ?_
  rw [div_lt_iff₀ (by positivity)]
  rw [div_lt_iff₀ hw] at he
  linarith

/-- C108: with enough sub-boxes `get_range_box` returns the exact range up to any tolerance. -/
theorem C108_range_converges (eps : ℝ) (he : 0 < eps) (s : Slope) (N : RNet (Fin (n + 1)) (Fin 1)) (hN : N.WF)
    (bs : List (BoxOf (Fin (n + 1)) ℝ)) (hb : ∀ b ∈ bs, ∀ i, b.1 i ≤ b.2 i) (d : ℝ) (hd : 0 < d) :
    ∃ K, ∀ nSub, K ≤ nSub → ∀ batch, ∃ us ls, getRangeBox (N.onBox eps s) .ibp batch nSub bs = .ok (us, ls) ∧
      us.length = bs.length ∧ ls.length = bs.length ∧
      ∀ (i : ℕ) (b : BoxOf (Fin (n + 1)) ℝ), bs[i]? = some b → ∃ u l, us[i]? = some u ∧ ls[i]? = some l ∧
        (∀ p ∈ Box b.1 b.2, l ≤ N.eval p 0 ∧ N.eval p 0 ≤ u) ∧
        (∃ p ∈ Box b.1 b.2, u ≤ N.eval p 0 + d) ∧ ∃ p ∈ Box b.1 b.2, N.eval p 0 - d ≤ l := by
  obtain ⟨K, hK⟩ := eventually_list bs _ fun b hb' => N.narrow_refine eps s 0 b (hb b hb') d hd
  exact ⟨K, fun nSub hn batch => range_close (N.onBox eps s) (fun p => N.eval p) (fun c p hp k => C108_box eps he s N hN c p hp k) bs hb d
    nSub (hK nSub hn) batch⟩

/-- C108: the score of `get_adv_box` bounds the margin and converges to the largest one. -/
theorem C108_score_converges [Fintype κ] [Nonempty κ] (eps : ℝ) (he : 0 < eps) (s : Slope) (N : RNet (Fin (n + 1)) κ) (hN : N.WF)
    (rows : List (AdvSample (Fin (n + 1)) κ ℝ)) (hb : ∀ r ∈ rows, ∀ i, r.box.1 i ≤ r.box.2 i) (hl : ∀ r ∈ rows, Labels r.src r.tgt)
    (d : ℝ) (hd : 0 < d) :
    ∃ K, ∀ nSub, K ≤ nSub → ∀ batch, ∃ scs, getAdvBox (N.onBox eps s) .ibp batch nSub rows = .ok scs ∧
      List.Forall₂ (fun (r : AdvSample (Fin (n + 1)) κ ℝ) sc =>
        (∀ p ∈ Box r.box.1 r.box.2, ∀ t s, r.tgt t = 1 → r.src s = 1 → N.eval p t - N.eval p s ≤ sc) ∧
        ∃ p ∈ Box r.box.1 r.box.2, ∃ t s, r.tgt t = 1 ∧ r.src s = 1 ∧ sc ≤ N.eval p t - N.eval p s + d) rows scs := by
  obtain ⟨K, hK⟩ := eventually_list rows _ fun r hr => eventually_list Finset.univ.toList _ fun k _ =>
    N.narrow_refine eps s k r.box (hb r hr) (d / 2) (by positivity)
  exact ⟨K, fun nSub hn batch => score_close (N.onBox eps s) (fun p => N.eval p) (fun c p hp k => C108_box eps he s N hN c p hp k) rows hb hl d
    nSub (fun r hr k => hK nSub hn r hr k (Finset.mem_toList.2 (Finset.mem_univ k))) batch⟩

/-- C108: completeness: a sample on which every source beats every target at every point of the box gets a negative score, provided
enough sub-boxes are asked for (no margin has to be assumed: the box is compact and the model is continuous). -/
theorem C108_adv_complete [Fintype κ] [Nonempty κ] (eps : ℝ) (he : 0 < eps) (s : Slope) (N : RNet (Fin (n + 1)) κ) (hN : N.WF)
    (r : AdvSample (Fin (n + 1)) κ ℝ) (hb : ∀ i, r.box.1 i ≤ r.box.2 i) (hl : Labels r.src r.tgt)
    (hrob : ∀ p ∈ Box r.box.1 r.box.2, ∀ t s, r.tgt t = 1 → r.src s = 1 → N.eval p t < N.eval p s) :
    ∃ K, ∀ nSub, K ≤ nSub → ∀ batch, ∃ sc, getAdvBox (N.onBox eps s) .ibp batch nSub [r] = .ok [sc] ∧ sc < 0 := by
  have hcont : ∀ k, Continuous fun p => N.eval p k := by
    intro k
    have h := (N.onBox_cont eps s k).1.comp (Continuous.prodMk continuous_id continuous_id)
    refine h.congr fun p => ?_
    exact (C108_point eps s N p k).1
  have hK : IsCompact (Box r.box.1 r.box.2) := by
    have e : Box r.box.1 r.box.2 = Set.Icc r.box.1 r.box.2 := by
      ext p; exact ⟨fun h => ⟨fun i => (h i).1, fun i => (h i).2⟩, fun h i => ⟨h.1 i, h.2 i⟩⟩
    rw [e]; exact isCompact_Icc
  have hne : (Box r.box.1 r.box.2).Nonempty := ⟨r.box.1, fun i => ⟨le_rfl, hb i⟩⟩
  -- a margin for each pair, then one for all pairs
  have pair : ∀ t s', r.tgt t = 1 → r.src s' = 1 → ∃ d, 0 < d ∧ ∀ p ∈ Box r.box.1 r.box.2, N.eval p t + d ≤ N.eval p s' := by
    intro t s' ht hs'
    obtain ⟨q, hq, hmin⟩ := hK.exists_isMinOn hne ((hcont s').sub (hcont t)).continuousOn
    refine ⟨N.eval q s' - N.eval q t, sub_pos.2 (hrob q hq t s' ht hs'), fun p hp => ?_⟩
    have := hmin hp
    simp only [Set.mem_setOf_eq, Pi.sub_apply] at this
    linarith
  have hd : ∃ d, 0 < d ∧ ∀ t s', r.tgt t = 1 → r.src s' = 1 → ∀ p ∈ Box r.box.1 r.box.2, N.eval p t + d ≤ N.eval p s' := by
    classical
    have all : ∀ q : κ × κ, ∃ d : ℝ, 0 < d ∧ (r.tgt q.1 = 1 → r.src q.2 = 1 → ∀ p ∈ Box r.box.1 r.box.2, N.eval p q.1 + d ≤ N.eval p q.2) := by
      intro q
      by_cases h : r.tgt q.1 = 1 ∧ r.src q.2 = 1
      · obtain ⟨d, h1, h2⟩ := pair q.1 q.2 h.1 h.2
        exact ⟨d, h1, fun _ _ => h2⟩
      · exact ⟨1, one_pos, fun h1 h2 => absurd ⟨h1, h2⟩ h⟩
    choose m hm hm' using all
    refine ⟨Finset.univ.inf' Finset.univ_nonempty m, (Finset.lt_inf'_iff _).2 fun q _ => hm q, fun t s' ht hs' p hp => ?_⟩
    have h1 := hm' (t, s') ht hs' p hp
    have h2 := Finset.inf'_le m (Finset.mem_univ (t, s'))
    dsimp only at h1
    linarith
  obtain ⟨d, hd, hmar⟩ := hd
  obtain ⟨K, hK⟩ := C108_score_converges eps he s N hN [r] (by simpa using hb) (by simpa using hl) (d / 2) (by positivity)
  refine ⟨K, fun nSub hn batch => ?_⟩
  obtain ⟨scs, h1, h2⟩ := hK nSub hn batch
  cases h2 with
  | cons h h' =>
    cases h'
    obtain ⟨-, p, hp, t, s', ht, hs', hle⟩ := h
    refine ⟨_, h1, ?_⟩
    have := hmar t s' ht hs' p hp
    linarith

end

/-! ### Concrete instances -/

/-- `x * sigmoid(x)`, with `Activation("sigmoid")` and `Multiply`. -/
def swish : RNet (Fin 1) (Fin 1) := .merge .multiply 1 .input fun _ => .act .sigmoid .input

/-- The hypotheses of C108 hold, and on `[0, 1]` the bounds are `0` and `sigmoid(1)`, which are the values of the model at `0` and `1`. -/
example : swish.WF ∧ (swish.onBox 1 .vSlope (fun _ => 0, fun _ => 1)).lc 0 = 0 ∧ swish.eval (fun _ => 0) 0 = 0 ∧
    (swish.onBox 1 .vSlope (fun _ => 0, fun _ => 1)).uc 0 = 1 / (1 + Real.exp (-1)) ∧ swish.eval (fun _ => 1) 0 = 1 / (1 + Real.exp (-1)) := by
  have hs : (1 : ℝ) / 2 ≤ 1 / (1 + Real.exp (-1)) := by
    have : Real.exp (-1) ≤ 1 := Real.exp_le_one_iff.2 (by norm_num)
    exact one_div_le_one_div_of_le (by positivity) (by linarith)
  have hp : (0 : ℝ) ≤ 1 / (1 + Real.exp (-1)) := by positivity
  refine ⟨⟨trivial, fun _ => trivial⟩, ?_, ?_, ?_, ?_⟩
  · simp [swish, RNet.onBox, RNet.forward, NaryOp.forward, multiplyLayerT, multiplyT, tighten_ibp_eq, getIbp, inputTensorsBox,
      (SmoothAct.forward_const _ _ _ _ _).1, SmoothAct.eval]
  · simp [swish, RNet.eval, NaryOp.eval]
  · simp only [swish, RNet.onBox, RNet.forward, NaryOp.forward, multiplyLayerT, multiplyT, tighten_ibp_eq, getIbp, inputTensorsBox, List.ofFn_succ,
      List.ofFn_zero, List.foldl_cons, List.foldl_nil, (SmoothAct.forward_const _ _ _ _ _).1, (SmoothAct.forward_const _ _ _ _ _).2, SmoothAct.eval,
      if_true]
    norm_num [Real.exp_zero] at hs hp ⊢
    simp [hs, hp]
  · simp [swish, RNet.eval, NaryOp.eval, SmoothAct.eval]

theorem swish_wf : swish.WF := ⟨trivial, fun _ => trivial⟩

/-- The theorems of C108 for `x * sigmoid(x)` on `[-1, 2]`: sound, smaller on `[0, 1]`, exact on one point, and exact in the limit. -/
example (p : Fin 1 → ℝ) (hp : p ∈ Box (fun _ => -1) fun _ => 2) :
    ((swish.onBox 1 .vSlope (fun _ => -1, fun _ => 2)).lc 0 ≤ swish.eval p 0 ∧ swish.eval p 0 ≤ (swish.onBox 1 .vSlope (fun _ => -1, fun _ => 2)).uc 0) ∧
    (swish.onBox 1 .vSlope (fun _ => -1, fun _ => 2)).lc 0 ≤ (swish.onBox 1 .zSlope (fun _ => 0, fun _ => 1)).lc 0 ∧ (swish.onBox 1 .vSlope (p, p)).lc 0 = swish.eval p 0 :=
  ⟨C108_box 1 one_pos .vSlope swish swish_wf (fun _ => -1, fun _ => 2) p hp 0,
    (C108_monotone 1 one_pos .vSlope .zSlope swish swish_wf (fun _ => -1, fun _ => 2) (fun _ => 0, fun _ => 1) (fun _ => by norm_num) (fun _ => by norm_num) 0).1,
    (C108_point 1 .vSlope swish p 0).1⟩

example (p : Fin 1 → ℝ) (hp : p ∈ LpBall (fun _ => 0) 1 (.fin 2)) :
    swish.eval p 0 ≤ (swish.forward (ballDomain 1 (.fin 2)) 1 .vSlope (inputTensorsBall .ibp 1 (.fin 2) fun _ => 0)).uc 0 :=
  (C108_ball 1 one_pos .vSlope 1 (.fin 2) (fun _ => 0) swish swish_wf p hp 0).2

example (p : Fin 1 → ℝ) (hp : p ∈ Box (fun _ => -1) fun _ => 2) : swish.eval p 0 ≤ (swish.forward boxDomain 1 .vSlope (inputTensorsBox .ibp (fun _ => -1) fun _ => 2)).uc 0 :=
  (C108_forward_sound boxDomain 1 one_pos .vSlope _ _ (boxDomain_sound _ _) swish swish_wf p hp (fun i => by simpa [inputTensorsBox, getIbp] using hp i) 0).2

example (p : Fin 1 → ℝ) : ∃ w, 0 < w ∧ ∀ b : BoxOf (Fin 1) ℝ, (∀ i, |b.1 i - p i| < w ∧ |b.2 i - p i| < w) →
    |(swish.onBox 1 .vSlope b).lc 0 - swish.eval p 0| < 1 / 100 ∧ |(swish.onBox 1 .vSlope b).uc 0 - swish.eval p 0| < 1 / 100 :=
  C108_shrink 1 .vSlope swish p 0 (1 / 100) (by norm_num)

example : ∃ K, ∀ nSub, K ≤ nSub → ∀ batch, ∃ us ls, getRangeBox (swish.onBox 1 .vSlope) .ibp batch nSub [(fun _ => -1, fun _ => 2)] = .ok (us, ls) ∧
    ∃ u l, us[0]? = some u ∧ ls[0]? = some l ∧ (∃ p ∈ Box (fun _ => -1) fun _ => 2, u ≤ swish.eval p 0 + 1 / 100) := by
  obtain ⟨K, h⟩ := C108_range_converges 1 one_pos .vSlope swish swish_wf [(fun _ => -1, fun _ => 2)] (by simp; norm_num) (1 / 100) (by norm_num)
  refine ⟨K, fun n hn batch => ?_⟩
  obtain ⟨us, ls, h1, -, -, h2⟩ := h n hn batch
  obtain ⟨u, l, a, b, -, c, -⟩ := h2 0 _ rfl
  exact ⟨us, ls, h1, u, l, a, b, c⟩

/-- Two classes `x0 ∈ [2, 3]` and `x1 ∈ [0, 1]`: with enough sub-boxes the score is close to the largest difference. -/
example : ∃ K, ∀ nSub, K ≤ nSub → ∀ batch, ∃ scs,
    getAdvBox ((RNet.input : RNet (Fin 2) (Fin 2)).onBox 1 .vSlope) .ibp batch nSub [⟨(![2, 0], ![3, 1]), ![1, 0], ![0, 1]⟩] = .ok scs ∧ scs.length = 1 := by
  obtain ⟨K, h⟩ := C108_score_converges 1 one_pos .vSlope (RNet.input : RNet (Fin 2) (Fin 2)) trivial [⟨(![2, 0], ![3, 1]), ![1, 0], ![0, 1]⟩]
    (fun r hr i => by simp at hr; subst hr; fin_cases i <;> norm_num)
    (fun r hr => by simp at hr; subst hr; exact ⟨fun k => by fin_cases k <;> simp, fun k => by fin_cases k <;> simp, ⟨1, rfl⟩, 0, rfl⟩) (1 / 100) (by norm_num)
  refine ⟨K, fun n hn batch => ?_⟩
  obtain ⟨scs, h1, h2⟩ := h n hn batch
  exact ⟨scs, h1, h2.length_eq.symm⟩

/-- Two classes `x0`, `x1` with `x0 ∈ [2, 3]` and `x1 ∈ [0, 1]`: enough sub-boxes prove that class 0 wins. -/
example : ∃ K, ∀ nSub, K ≤ nSub → ∀ batch, ∃ sc,
    getAdvBox ((RNet.input : RNet (Fin 2) (Fin 2)).onBox 1 .vSlope) .ibp batch nSub [⟨(![2, 0], ![3, 1]), ![1, 0], ![0, 1]⟩] = .ok [sc] ∧ sc < 0 := by
  refine C108_adv_complete 1 one_pos .vSlope (RNet.input : RNet (Fin 2) (Fin 2)) trivial ⟨(![2, 0], ![3, 1]), ![1, 0], ![0, 1]⟩
    (fun i => by fin_cases i <;> norm_num) ?_ ?_
  · exact ⟨fun k => by fin_cases k <;> simp, fun k => by fin_cases k <;> simp, ⟨1, rfl⟩, 0, rfl⟩
  · intro p hp t s ht hs
    have h0 := hp 0
    have h1 := hp 1
    fin_cases t <;> fin_cases s <;> simp_all [RNet.eval]
    linarith

end Decomon
