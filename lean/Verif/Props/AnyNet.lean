import Verif.Lemmas.AnyNet
import Verif.Props.IbpNet

/-! Property C128: forward propagation in every mode through networks of all the supported layers. -/

namespace Decomon

section
variable {X X' ι κ : Type} [Fintype ι]

/-- C128: in every mode the constants and the lines hold at every point of the region, provided no activation is given an interval on which
its own lines are wrong (`RNet.Good`).  Missing: the networks that are not `Good`, for which the claim is false. -/
theorem C128_forward_partial (D : PertDomain X ι ℝ) (m : Mode) (eps : ℝ) (he : 0 < eps) (slope : Slope) (inp : Full X ι ι ℝ)
    (R : Set (ι → ℝ)) (hD : D.Sound inp.x R) (p : ι → ℝ) (hp : p ∈ R) (hi : Valid m false inp p p) (n : RNet ι κ) (hn : n.WF)
    (hg : n.Good D m eps slope inp) : Valid m false (n.forwardIn D m eps slope inp) p (n.eval p) :=
  RNet.forwardIn_valid D m eps he slope inp R hD p hp hi n hn hg

/-- C128: in ibp mode no network is excluded, and the propagation is the one of C108. -/
theorem C128_ibp (D : PertDomain X ι ℝ) (eps : ℝ) (slope : Slope) (inp : Full X ι ι ℝ) (n : RNet ι κ) :
    n.Good D .ibp eps slope inp ∧ n.forwardIn D .ibp eps slope inp = n.forward D eps slope inp :=
  ⟨n.good_ibp D eps slope inp, n.forwardIn_ibp D eps slope inp⟩

/-- C128: the constants of the hybrid mode are inside the constants of the interval propagation, whatever the slopes.  Missing: the networks
that are not `Good`. -/
theorem C128_hybrid_inside_ibp_partial (D : PertDomain X ι ℝ) (D' : PertDomain X' ι ℝ) (eps : ℝ) (he : 0 < eps) (s s' : Slope)
    (inp : Full X ι ι ℝ) (inp' : Full X' ι ι ℝ) (h : ∀ i, inp'.lc i ≤ inp.lc i ∧ inp.uc i ≤ inp'.uc i) (R : Set (ι → ℝ))
    (hD : D.Sound inp.x R) (p : ι → ℝ) (hp : p ∈ R) (hi : Valid .hybrid false inp p p) (n : RNet ι κ) (hn : n.WF)
    (hg : n.Good D .hybrid eps s inp) (k : κ) :
    (n.forwardIn D' .ibp eps s' inp').lc k ≤ (n.forwardIn D .hybrid eps s inp).lc k ∧
    (n.forwardIn D .hybrid eps s inp).uc k ≤ (n.forwardIn D' .ibp eps s' inp').uc k := by
  rw [RNet.forwardIn_ibp]
  exact RNet.forwardIn_tighter rfl eps he s s' h R hD p hp hi n hn hg k

variable [DecidableEq ι]

/-- C128: over a box. -/
theorem C128_box_partial (m : Mode) (eps : ℝ) (he : 0 < eps) (slope : Slope) (n : RNet ι κ) (hn : n.WF) (b : BoxOf ι ℝ)
    (hg : n.Good boxDomain m eps slope (inputTensorsBox m b.1 b.2)) (p : ι → ℝ) (hp : p ∈ Box b.1 b.2) :
    Valid m false (n.onBoxIn m eps slope b) p (n.eval p) :=
  C128_forward_partial boxDomain m eps he slope _ (Box b.1 b.2) (boxDomain_sound _ _) p hp (C27_input_box m b.1 b.2 p hp) n hn hg

/-- C128: over an `Lp` ball. -/
theorem C128_ball_partial [Nonempty ι] (m : Mode) (leps : ℝ) (he : 0 < leps) (slope : Slope) (eps : ℝ) (q : PVal) (z : ι → ℝ) (n : RNet ι κ)
    (hn : n.WF) (hg : n.Good (ballDomain eps q) m leps slope (inputTensorsBall m eps q z)) (p : ι → ℝ) (hp : p ∈ LpBall z eps q) :
    Valid m false (n.forwardIn (ballDomain eps q) m leps slope (inputTensorsBall m eps q z)) p (n.eval p) :=
  C128_forward_partial (ballDomain eps q) m leps he slope _ (LpBall z eps q) (ball_input_sound m eps q z) p hp
    (C27_input_ball m eps q z p hp) n hn hg

/-- C128: on a single point every bound of every mode is the prediction, unless the model contains softplus. -/
theorem C128_point (m : Mode) (eps : ℝ) (slope : Slope) (n : RNet ι κ) (hn : getAffine m = true → n.NoSoftplus) (p : ι → ℝ) :
    ExactAt m (n.onBoxIn m eps slope (p, p)) p (n.eval p) :=
  RNet.forwardIn_exact boxDomain m eps slope _ p (boxDomain_point p) (inputTensorsBox_exact m p) n hn

/-- The bounds handed to the activation of a network that begins with it. -/
theorem input_tightened (m : Mode) (c : Bool) (hc : getIbp m = true ∨ c = true) (b : BoxOf ι ℝ) (k : ι) :
    ((inputTensorsBox m b.1 b.2).tighten boxDomain m c true).lc k = b.1 k ∧
    ((inputTensorsBox m b.1 b.2).tighten boxDomain m c true).uc k = b.2 k := by
  have e1 : getLowerBox b.1 b.2 (fun i => if i = k then (1 : ℝ) else 0) 0 = b.1 k := by
    simp [getLowerBox, apply_ite, ite_mul, Finset.sum_ite_eq', Finset.sum_ite]
  have e2 : getUpperBox b.1 b.2 (fun i => if i = k then (1 : ℝ) else 0) 0 = b.2 k := by
    simp [getUpperBox, apply_ite, ite_mul, Finset.sum_ite_eq', Finset.sum_ite]
  cases m <;> cases c <;> simp_all [Full.tighten, inputTensorsBox, getIbp, getAffine, boxDomain]

/-- The lines of an activation on the inputs, at a point. -/
theorem act_input_line (m : Mode) (ha : getAffine m = true) (c : Bool) (b : BoxOf ι ℝ) (p : ι → ℝ) (k : ι) (w d e : ℝ) :
    affEval (fun i => w * ((inputTensorsBox m b.1 b.2).tighten boxDomain m c true).wu i k)
      (d + w * ((inputTensorsBox m b.1 b.2).tighten boxDomain m c true).bu k) p = w * p k + d ∧
    affEval (fun i => e * ((inputTensorsBox m b.1 b.2).tighten boxDomain m c true).wl i k)
      (d + e * ((inputTensorsBox m b.1 b.2).tighten boxDomain m c true).bl k) p = e * p k + d := by
  simp [inputTensorsBox, ha, affEval, mul_assoc]

/-- C128: the exact condition for one s-shaped activation on the inputs: its lines are right on a box (with no face on zero) if and only if
every side is a point, or is at least `eps` long and does not meet zero. -/
theorem C128_sshape_iff (m : Mode) (ha : getAffine m = true) (eps : ℝ) (he : 0 < eps) (slope : Slope) (a : SmoothAct) (hs : a.IsSShape)
    (b : BoxOf ι ℝ) (hb : ∀ i, b.1 i ≤ b.2 i) (h0 : ∀ i, b.1 i = b.2 i ∨ (b.1 i ≠ 0 ∧ b.2 i ≠ 0)) :
    (∀ p ∈ Box b.1 b.2, Valid m false ((RNet.act a .input).onBoxIn m eps slope b) p (fun k => a.eval (p k))) ↔
      ∀ k, OneSided eps (b.1 k) (b.2 k) := by
  constructor
  · intro h k
    obtain ⟨g, g', S, e, hT⟩ : ∃ g g', SShaped g g' ∧ (∀ z, a.eval z = g z) ∧
        ∀ f : Full (BoxOf ι ℝ) ι ι ℝ, a.forwardIn boxDomain m eps slope f = sShapeT boxDomain m eps g g' f := by
      cases a with
      | sigmoid => exact ⟨_, _, sshaped_sigmoid, fun z => by simp [SmoothAct.eval, Real.sigmoid], fun _ => rfl⟩
      | tanh => exact ⟨_, _, sshaped_tanh, fun _ => rfl, fun _ => rfl⟩
      | softsign => exact ⟨_, _, sshaped_softsign, fun _ => rfl, fun _ => rfl⟩
      | exponential => exact hs.elim
      | softplus => exact hs.elim
    refine (C18_iff S eps he _ _ (hb k) (h0 k)).1 fun z h1 h2 => ?_
    have hp : Function.update b.1 k z ∈ Box b.1 b.2 := by
      intro i
      by_cases hi : i = k
      · subst hi; simpa using ⟨h1, h2⟩
      · simpa [hi] using hb i
    have v := (h _ hp).aff ha k
    obtain ⟨t1, t2⟩ := input_tightened m true (.inr rfl) b k
    simp only [RNet.onBoxIn, RNet.forwardIn, hT, sShapeT, ha, if_true, t1, t2, e, Function.update_self] at v
    rw [(act_input_line m ha false b _ k 0 _ _).2, (act_input_line m ha false b _ k _ _ 0).1, Function.update_self] at v
    exact v
  · intro h p hp
    refine C128_box_partial m eps he slope (.act a .input) (by simp [RNet.WF]) b ⟨trivial, fun _ k => ?_⟩ p hp
    obtain ⟨t1, t2⟩ := input_tightened m true (.inr rfl) b k
    simp only [RNet.forwardIn]
    rw [t1, t2]
    cases a with
    | sigmoid => exact h k
    | tanh => exact h k
    | softsign => exact h k
    | exponential => exact hs.elim
    | softplus => exact hs.elim

/-- C128: the claim is false without `RNet.Good`: softplus on the inputs is wrong on every box, at the largest corner, in affine and hybrid
mode. -/
theorem C128_softplus_refuted (m : Mode) (ha : getAffine m = true) (eps : ℝ) (he : 0 < eps) (slope : Slope) (hs : slope ≠ .aSlope)
    (b : BoxOf ι ℝ) (hb : ∀ i, b.1 i ≤ b.2 i) (k : ι) :
    let f := (RNet.act .softplus .input).onBoxIn m eps slope b
    affEval (fun i => f.wu i k) (f.bu k) b.2 < (RNet.act .softplus .input).eval b.2 k := by
  obtain ⟨h, hh⟩ := (C20_slopes eps slope none (b.1 k) (b.2 k)).2 hs
  have := C20_upper_refuted eps he slope none (by simp) _ _ (hb k) h hh
  obtain ⟨t1, t2⟩ := input_tightened m true (.inr rfl) b k
  simp only [RNet.onBoxIn, RNet.forwardIn, SmoothAct.forwardIn, softplusT, ha, if_true, t1, t2, hh]
  rw [add_comm, (act_input_line m ha true b _ k _ _ 0).1]
  simpa [RNet.eval, SmoothAct.eval, softplus] using this

end

section
variable {n : ℕ} {κ : Type}

/-- C128: `get_range_box` with one box, whatever the mode.  Missing: the networks that are not `Good`. -/
theorem C128_range_partial {d : ℕ} (m : Mode) (eps : ℝ) (he : 0 < eps) (s : Slope) (N : RNet (Fin (n + 1)) (Fin d)) (hN : N.WF) (batch nSub : ℕ)
    (hn : nSub ≤ 1) (bs : List (BoxOf (Fin (n + 1)) ℝ)) (hb : ∀ b ∈ bs, ∀ i, b.1 i ≤ b.2 i)
    (hg : ∀ b ∈ bs, N.Good boxDomain m eps s (inputTensorsBox m b.1 b.2)) :
    ∃ us ls, getRangeBox (N.onBoxIn m eps s) m batch nSub bs = .ok (us, ls) ∧ us.length = bs.length * d ∧ ls.length = bs.length * d ∧
      ∀ i b, bs[i]? = some b → ∀ c : Fin d, ∃ u l, us[i * d + c]? = some u ∧ ls[i * d + c]? = some l ∧
        ∀ p ∈ Box b.1 b.2, l ≤ N.eval p c ∧ N.eval p c ≤ u :=
  C34_range_sound (N.onBoxIn m eps s) m (fun p => N.eval p) batch nSub hn bs hb fun b hb' p hp =>
    C128_box_partial m eps he s N hN b (hg b hb') p hp

/-- C128: a negative score of `get_adv_box` certifies the sample, whatever the mode.  Missing: the networks that are not `Good`. -/
theorem C128_adv_partial [Fintype κ] [Nonempty κ] (m : Mode) (eps : ℝ) (he : 0 < eps) (s : Slope) (N : RNet (Fin (n + 1)) κ) (hN : N.WF)
    (batch nSub : ℕ) (rows : List (AdvSample (Fin (n + 1)) κ ℝ)) (hb : ∀ r ∈ rows, ∀ i, r.box.1 i ≤ r.box.2 i)
    (hg : ∀ b ∈ (subBoxes nSub (rows.map AdvSample.box)).1, N.Good boxDomain m eps s (inputTensorsBox m b.1 b.2)) :
    ∃ scs, getAdvBox (N.onBoxIn m eps s) m batch nSub rows = .ok scs ∧
      List.Forall₂ (fun (r : AdvSample (Fin (n + 1)) κ ℝ) sc =>
        sc < 0 → ∀ p ∈ Box r.box.1 r.box.2, ∀ t s, r.tgt t = 1 → r.src s = 1 → N.eval p t < N.eval p s) rows scs := by
  obtain ⟨scs, h1, h2⟩ := C33_adv_box_bounds (N.onBoxIn m eps s) m (fun p => N.eval p) batch nSub rows hb fun b hb' p hp =>
    C128_box_partial m eps he s N hN b (hg b hb') p hp
  refine ⟨scs, h1, h2.imp fun r sc h hn p hp t s ht hs => ?_⟩
  have := h p hp t s ht hs
  linarith

end

/-! ### Concrete instances -/

/-- `exp(x) * tanh(x)`: the hypotheses of C128 hold on `[1, 2]` in every mode. -/
def expTanh : RNet (Fin 1) (Fin 1) := .merge .multiply 1 (.act .exponential .input) fun _ => .act .tanh .input

example (m : Mode) (p : Fin 1 → ℝ) (hp : p ∈ Box (fun _ => 1) (fun _ => 2)) :
    Valid m false (expTanh.onBoxIn m (1 / 10000000) .vSlope (fun _ => 1, fun _ => 2)) p (expTanh.eval p) := by
  refine C128_box_partial m _ (by norm_num) .vSlope expTanh ⟨trivial, fun _ => trivial⟩ (fun _ => 1, fun _ => 2)
    ⟨⟨trivial, fun _ k => ?_⟩, fun _ => ⟨trivial, fun _ k => ?_⟩, trivial⟩ p hp
  all_goals
    obtain ⟨t1, t2⟩ := input_tightened m true (.inr rfl) (fun _ => 1, fun _ => 2) k
    simp only [RNet.forwardIn]
    rw [t1, t2]
  · exact .inr (by norm_num)
  · exact .inr ⟨by norm_num, .inl (by norm_num)⟩

/-- `C128_point` applies to it. -/
example : expTanh.NoSoftplus := ⟨⟨by decide, trivial⟩, fun _ => ⟨by decide, trivial⟩⟩

/-- The condition of `C128_sshape_iff` separates two boxes: `[1, 2]` is covered, `[-1, 1]` is not. -/
example : OneSided (1 / 10000000) 1 2 ∧ ¬ OneSided (1 / 10000000) (-1) 1 :=
  ⟨.inr ⟨by norm_num, .inl (by norm_num)⟩, by rintro (h | ⟨-, h | h⟩) <;> norm_num at h⟩

/-- `exp(x) * tanh(x)` again: its range over `[1, 2]` in every mode, and its exact value when the box is one point. -/
theorem expTanh_good (m : Mode) : expTanh.Good boxDomain m (1 / 10000000) .vSlope (inputTensorsBox m (fun _ => 1) fun _ => 2) := by
  refine ⟨⟨trivial, fun _ k => ?_⟩, fun _ => ⟨trivial, fun _ k => ?_⟩, trivial⟩
  all_goals
    obtain ⟨t1, t2⟩ := input_tightened m true (.inr rfl) (fun _ => 1, fun _ => 2) k
    simp only [RNet.forwardIn]
    rw [t1, t2]
  · exact .inr (by norm_num)
  · exact .inr ⟨by norm_num, .inl (by norm_num)⟩

example (m : Mode) : ∃ us ls, getRangeBox (expTanh.onBoxIn m (1 / 10000000) .vSlope) m (-1).toNat 1 [(fun _ => 1, fun _ => 2)] = .ok (us, ls) ∧
    us.length = 1 ∧ ls.length = 1 := by
  obtain ⟨us, ls, h, h1, h2, -⟩ := C128_range_partial m (1 / 10000000) (by norm_num) .vSlope expTanh ⟨trivial, fun _ => trivial⟩ (-1).toNat 1 le_rfl
    [(fun _ => 1, fun _ => 2)] (fun b hb i => by simp at hb; subst hb; norm_num) fun b hb => by simp at hb; subst hb; exact expTanh_good m
  exact ⟨us, ls, h, h1, h2⟩

example (p : Fin 1 → ℝ) (hp : p ∈ Box (fun _ => 1) fun _ => 2) : Valid .hybrid false (expTanh.onBoxIn .hybrid (1 / 10000000) .vSlope (fun _ => 1, fun _ => 2)) p (expTanh.eval p) ∧
    (expTanh.onBoxIn .ibp (1 / 10000000) .sSlope (fun _ => 1, fun _ => 2)).lc 0 ≤ (expTanh.onBoxIn .hybrid (1 / 10000000) .vSlope (fun _ => 1, fun _ => 2)).lc 0 :=
  ⟨C128_forward_partial boxDomain .hybrid _ (by norm_num) .vSlope (inputTensorsBox .hybrid (fun _ => 1) fun _ => 2) _ (boxDomain_sound _ _) p hp (C27_input_box .hybrid _ _ _ hp)
      expTanh ⟨trivial, fun _ => trivial⟩ (expTanh_good .hybrid),
   (C128_hybrid_inside_ibp_partial boxDomain boxDomain _ (by norm_num) .vSlope .sSlope (inputTensorsBox .hybrid (fun _ => 1) fun _ => 2) (inputTensorsBox .ibp (fun _ => 1) fun _ => 2)
      (fun _ => by simp [inputTensorsBox, getIbp]) _ (boxDomain_sound _ _) p hp (C27_input_box .hybrid _ _ _ hp) expTanh ⟨trivial, fun _ => trivial⟩ (expTanh_good .hybrid) 0).1⟩

example (m : Mode) (p : Fin 1 → ℝ) : ExactAt m (expTanh.onBoxIn m (1 / 10000000) .vSlope (p, p)) p (expTanh.eval p) :=
  C128_point m _ _ expTanh (fun _ => ⟨⟨by decide, trivial⟩, fun _ => ⟨by decide, trivial⟩⟩) p

/-- `tanh` in hybrid mode: certified on `[1, 2]`, not on `[-1, 2]`. -/
example : (∀ p ∈ Box (fun _ : Fin 1 => (1 : ℝ)) fun _ => 2, Valid .hybrid false ((RNet.act .tanh .input).onBoxIn .hybrid (1 / 10000000) .vSlope (fun _ => 1, fun _ => 2)) p
      fun k => SmoothAct.tanh.eval (p k)) ∧
    ¬ ∀ p ∈ Box (fun _ : Fin 1 => (-1 : ℝ)) fun _ => 2, Valid .hybrid false ((RNet.act .tanh .input).onBoxIn .hybrid (1 / 10000000) .vSlope (fun _ => -1, fun _ => 2)) p
      fun k => SmoothAct.tanh.eval (p k) := by
  constructor
  · exact (C128_sshape_iff .hybrid rfl _ (by norm_num) .vSlope .tanh trivial (fun _ => 1, fun _ => 2) (fun _ => by norm_num) fun _ => .inr (by norm_num)).mpr
      fun k => .inr ⟨by norm_num, .inl (by norm_num)⟩
  · intro h
    have := (C128_sshape_iff .hybrid rfl _ (by norm_num) .vSlope .tanh trivial (fun _ => -1, fun _ => 2) (fun _ => by norm_num) fun _ => .inr (by norm_num)).mp h 0
    rcases this with h | ⟨-, h | h⟩ <;> norm_num at h

/-- The identity, in every mode, on a ball and as a score. -/
example (m : Mode) (p : Fin 2 → ℝ) (hp : p ∈ LpBall (fun _ => 1) (1 / 2) (.fin 2)) :
    Valid m false ((RNet.input : RNet (Fin 2) (Fin 2)).forwardIn (ballDomain (1 / 2) (.fin 2)) m 1 .vSlope (inputTensorsBall m (1 / 2) (.fin 2) fun _ => 1)) p p :=
  C128_ball_partial m 1 one_pos .vSlope (1 / 2) (.fin 2) (fun _ => 1) .input (by trivial) (by trivial) p hp

example (m : Mode) : ∃ scs, getAdvBox ((RNet.input : RNet (Fin 2) (Fin 2)).onBoxIn m 1 .vSlope) m 1 1 [⟨(![0, 2], ![1, 3]), ![0, 1], ![1, 0]⟩] = .ok scs ∧ scs.length = 1 := by
  obtain ⟨scs, h, hf⟩ := C128_adv_partial m 1 one_pos .vSlope (RNet.input : RNet (Fin 2) (Fin 2)) trivial 1 1 [⟨(![0, 2], ![1, 3]), ![0, 1], ![1, 0]⟩]
    (fun r hr i => by simp at hr; subst hr; fin_cases i <;> norm_num) (fun _ _ => trivial)
  exact ⟨scs, h, hf.length_eq.symm⟩

end Decomon
