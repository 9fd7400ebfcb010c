import Verif.Model.Domain
import Verif.Props.Network

/-! Properties C51, C55. -/

namespace Decomon

/-! ### C51 -/

section
variable {X ι α : Type} [Fintype ι] [Field α] [LinearOrder α] [IsStrictOrderedRing α]

/-- No neuron of the forward pass after `set_domain` meets the sliver of the ReLU hull. -/
def Net.SliverOKAfter (Dold Dnew : PertDomain X ι α) (m : Mode) (eps : α) (slope : Slope) (inp : Full X ι ι α) :
    {κ : Type} → Net α ι κ → Prop
  | _, .input => True
  | _, @Net.layer _ _ _ _ _ _ _ n l => n.SliverOKAfter Dold Dnew m eps slope inp ∧
      l.SliverOK (if l.readsAttr then Dnew else Dold) m eps (n.forwardAfter Dold Dnew m eps slope inp)
  | _, .merge op n0 n1 => n0.SliverOKAfter Dold Dnew m eps slope inp ∧ n1.SliverOKAfter Dold Dnew m eps slope inp ∧
      op.SliverOK (if op.readsAttr then Dnew else Dold) m eps (n0.forwardAfter Dold Dnew m eps slope inp)
        (n1.forwardAfter Dold Dnew m eps slope inp)

omit [Fintype ι] [IsStrictOrderedRing α] in
theorem Net.forwardAfter_x (Dold Dnew : PertDomain X ι α) (m : Mode) (eps : α) (slope : Slope) (inp : Full X ι ι α) {κ : Type}
    (n : Net α ι κ) : (n.forwardAfter Dold Dnew m eps slope inp).x = inp.x := by
  induction n with
  | input => rfl
  | layer n l ih => simp only [Net.forwardAfter, Lay.forward_x, ih]
  | merge op n0 n1 ih0 ih1 =>
    rcases MergeOp.forward_x (if op.readsAttr then Dnew else Dold) m eps op (n0.forwardAfter Dold Dnew m eps slope inp)
      (n1.forwardAfter Dold Dnew m eps slope inp) with h | h <;> simp only [Net.forwardAfter, h, ih0, ih1]

theorem Net.forwardAfter_valid (Dold Dnew : PertDomain X ι α) (m : Mode) (eps : α) (he : 0 < eps) (slope : Slope)
    (inp : Full X ι ι α) (S : Set (ι → α)) (hO : Dold.Sound inp.x S) (hN : Dnew.Sound inp.x S) (p : ι → α) (hp : p ∈ S)
    (hi : Valid m false inp p p) {κ : Type} (n : Net α ι κ) (hn : n.WF) (hs : n.SliverOKAfter Dold Dnew m eps slope inp) :
    Valid m false (n.forwardAfter Dold Dnew m eps slope inp) p (n.eval p) := by
  have hD : ∀ b : Bool, (if b then Dnew else Dold).Sound inp.x S := fun b => by cases b <;> simpa
  induction n with
  | input => exact hi
  | layer n l ih =>
    exact l.forward_valid _ m eps he slope hn.2 _ S (by rw [Net.forwardAfter_x]; exact hD _) hs.2 p hp _ (ih hn.1 hs.1)
  | merge op n0 n1 ih0 ih1 =>
    exact op.forward_valid _ m eps he _ _ S (by rw [Net.forwardAfter_x]; exact hD _) (by rw [Net.forwardAfter_x]; exact hD _)
      hs.2.2 p hp _ _ (ih0 hn.1 hs.1) (ih1 hn.2 hs.2.1)

omit [Fintype ι] [IsStrictOrderedRing α] in
theorem tighten_affine_noIbp {κ : Type} (D : PertDomain X ι α) (tight : Bool) (f : Full X ι κ α) :
    f.tighten D .affine false tight = f := by
  simp [Full.tighten]

omit [Fintype ι] [IsStrictOrderedRing α] in
/-- In affine mode the layers that read the copy of the domain do not use it. -/
theorem Net.forwardAfter_affine (Dold Dnew : PertDomain X ι α) (eps : α) (slope : Slope) (inp : Full X ι ι α) {κ : Type}
    (n : Net α ι κ) : n.forwardAfter Dold Dnew .affine eps slope inp = n.forward Dnew .affine eps slope inp := by
  induction n with
  | input => rfl
  | layer n l ih =>
    simp only [Net.forwardAfter, Net.forward, ih]
    cases l <;> simp [Lay.forward, Lay.readsAttr, denseT, linearLayerT, batchNormT, reindexT, tighten_affine_noIbp]
  | merge op n0 n1 ih0 ih1 =>
    simp only [Net.forwardAfter, Net.forward, ih0, ih1]
    cases op <;> simp [MergeOp.forward, MergeOp.readsAttr, addLayerT, averageLayerT, tighten_affine_noIbp]

omit [Fintype ι] [IsStrictOrderedRing α] in
theorem tighten_ibp {κ : Type} (D : PertDomain X ι α) (c tight : Bool) (f : Full X ι κ α) : f.tighten D .ibp c tight = f := by
  simp [Full.tighten]

omit [Fintype ι] [IsStrictOrderedRing α] in
/-- In ibp mode no layer uses a domain. -/
theorem Net.forwardAfter_ibp (Dold Dnew : PertDomain X ι α) (eps : α) (slope : Slope) (inp : Full X ι ι α) {κ : Type}
    (n : Net α ι κ) : n.forwardAfter Dold Dnew .ibp eps slope inp = n.forward Dold .ibp eps slope inp := by
  induction n with
  | input => rfl
  | layer n l ih =>
    simp only [Net.forwardAfter, Net.forward, ih]
    cases l <;> simp [Lay.forward, Lay.readsAttr, reluT, tighten_ibp, getAffine]
  | merge op n0 n1 ih0 ih1 =>
    simp only [Net.forwardAfter, Net.forward, ih0, ih1]
    cases op <;> simp [MergeOp.forward, MergeOp.readsAttr, subtractT, addT, minusT, maximumLayerT, minimumLayerT, maximumT,
      multiplyLayerT, multiplyT, reluT, tighten_ibp, getAffine]

end

section Ball
variable {ι κ : Type} [Fintype ι] [DecidableEq ι] [Nonempty ι]

/-- C51, affine mode: after `set_domain` to a ball of any radius and norm, the affine bounds are valid over the new ball.
Missing: the modes with constant bounds, where it is false (`C51_larger_refuted`), unless the new ball is inside the old one
(`C51_smaller_partial`); slivers. -/
theorem C51_affine_partial (leps : ℝ) (he : 0 < leps) (slope : Slope) (eps eps' : ℝ) (q q' : PVal) (z : ι → ℝ) (n : Net ℝ ι κ)
    (hn : n.WF) (hs : n.SliverOK (ballDomain eps' q') .affine leps slope (inputTensorsBall .affine eps' q' z)) (p : ι → ℝ)
    (hp : p ∈ LpBall z eps' q') : Valid .affine false (ballAfter .affine leps slope eps q eps' q' z n) p (n.eval p) := by
  have hi : inputTensorsBall .affine eps q z = inputTensorsBall .affine eps' q' z := by simp [inputTensorsBall, getIbp]
  unfold ballAfter
  rw [Net.forwardAfter_affine, hi]
  exact C27_ball_partial .affine leps he slope eps' q' z n hn hs p hp

/-- C51, any mode: after `set_domain` the bounds are valid at the points common to the old and the new ball. -/
theorem C51_smaller_partial (m : Mode) (leps : ℝ) (he : 0 < leps) (slope : Slope) (eps eps' : ℝ) (q q' : PVal) (z : ι → ℝ)
    (n : Net ℝ ι κ) (hn : n.WF)
    (hs : n.SliverOKAfter (ballDomain eps q) (ballDomain eps' q') m leps slope (inputTensorsBall m eps q z)) (p : ι → ℝ)
    (hp : p ∈ LpBall z eps q) (hp' : p ∈ LpBall z eps' q') :
    Valid m false (ballAfter m leps slope eps q eps' q' z n) p (n.eval p) :=
  Net.forwardAfter_valid _ _ m leps he slope _ (LpBall z eps q ∩ LpBall z eps' q')
    (fun p hp => C02_ballDomain_sound z eps q p hp.1) (fun p hp => C02_ballDomain_sound z eps' q' p hp.2) p ⟨hp, hp'⟩
    (C27_input_ball m eps q z p hp) n hn hs

/-- C51: in ibp mode `set_domain` has no effect at all on the bounds. -/
theorem C51_ibp_no_effect (leps : ℝ) (slope : Slope) (eps eps' : ℝ) (q q' : PVal) (z : ι → ℝ) (n : Net ℝ ι κ) :
    ballAfter .ibp leps slope eps q eps' q' z n
      = n.forward (ballDomain eps q) .ibp leps slope (inputTensorsBall .ibp eps q z) :=
  Net.forwardAfter_ibp _ _ _ _ _ n

/-- C51 is false: in ibp and in hybrid mode, for every centre, old radius and strictly larger new radius, `set_domain` leaves the
constant bounds of the model that returns its input strictly inside the new ball. -/
theorem C51_larger_refuted (m : Mode) (hm : getIbp m = true) (leps : ℝ) (slope : Slope) (eps eps' : ℝ) (he : 0 ≤ eps) (h : eps < eps')
    (z : ι → ℝ) : ∃ p ∈ LpBall z eps' .inf,
      ¬ Valid m false (ballAfter m leps slope eps .inf eps' .inf z (.input : Net ℝ ι ι)) p ((.input : Net ℝ ι ι).eval p) := by
  refine ⟨fun i => z i + eps', Or.inl ⟨rfl, fun i => ?_⟩, fun v => ?_⟩
  · rw [add_sub_cancel_left, abs_of_nonneg (by linarith)]
  · obtain ⟨k⟩ := ‹Nonempty ι›
    have := (v.const hm k).2
    simp only [Net.eval, ballAfter, Net.forwardAfter, inputTensorsBall, hm, if_true] at this
    linarith

/-- C51: a domain of the other type is refused. -/
theorem C51_other_type (prev new : Bool) (h : prev ≠ new) : setDomainKind prev new = .error .notImplemented := by
  simp [setDomainKind, h]

end Ball

/-- Non-vacuity of C51: `ReLU(x)` around `0`, old radius 1, new radius 2 (inf norm): no sliver, hypotheses of the affine case. -/
example : let n : Net ℝ (Fin 1) (Fin 1) := .layer .input (.relu (fun _ => 1) (fun _ => 1))
    n.WF ∧ n.SliverOK (ballDomain 2 .inf) .affine (1 / 10) .vSlope (inputTensorsBall .affine 2 .inf fun _ => 0) ∧
    (fun _ => 2) ∈ LpBall (fun _ : Fin 1 => (0 : ℝ)) 2 .inf := by
  refine ⟨⟨trivial, fun _ => by norm_num⟩, ⟨trivial, ?_⟩, Or.inl ⟨rfl, fun _ => by norm_num⟩⟩
  intro _ k
  obtain rfl : k = 0 := Subsingleton.elim _ _
  simp [Full.tighten, Net.forward, inputTensorsBall, ballDomain, getUpperBall, getLowerBall, getUpperBox, getLowerBox, getAffine,
    Except.toOption]
  norm_num

/-- Non-vacuity of `C51_smaller_partial`: the same network, old radius 2, new radius 1, hybrid mode. -/
example : let n : Net ℝ (Fin 1) (Fin 1) := .layer .input (.relu (fun _ => 1) (fun _ => 1))
    n.SliverOKAfter (ballDomain 2 .inf) (ballDomain 1 .inf) .hybrid (1 / 10) .vSlope (inputTensorsBall .hybrid 2 .inf fun _ => 0) ∧
    (fun _ => 1) ∈ LpBall (fun _ : Fin 1 => (0 : ℝ)) 2 .inf ∩ LpBall (fun _ : Fin 1 => (0 : ℝ)) 1 .inf := by
  refine ⟨⟨trivial, ?_⟩, Or.inl ⟨rfl, fun _ => by norm_num⟩, Or.inl ⟨rfl, fun _ => by norm_num⟩⟩
  intro _ k
  obtain rfl : k = 0 := Subsingleton.elim _ _
  simp [Full.tighten, Net.forwardAfter, inputTensorsBall, ballDomain, getUpperBall, getLowerBall, getUpperBox, getLowerBox, getAffine,
    getIbp, Except.toOption, Lay.readsAttr]
  norm_num

/-! ### C55 -/

section
variable {ι : Type} [Fintype ι] [Nonempty ι]

private theorem sum_affEval_split (w a : ι → ℝ) (b : ℝ) (z : ι → ℝ) :
    affEval w b z = (∑ i, w i * (1 - a i) * z i) + affEval (fun i => w i * a i) b z := by
  simp only [affEval, ← add_assoc, ← Finset.sum_add_distrib]
  congr 1
  exact Finset.sum_congr rfl fun i _ => by ring

/-- C55, lower bounds: whatever the keyword arguments, if `get_lower_ball` returns then the result is a lower bound at every point of
the ball that is between the `lower` and `upper` corners given, for finetuning parameters at most 1. -/
theorem C55_lower_sound (x0 : ι → ℝ) (eps : ℝ) (p : PVal) (w : ι → ℝ) (b : ℝ) (kw : BallKwargs ι)
    (ha : ∀ a, kw.finetune = some a → ∀ i, a i ≤ 1) (z : ι → ℝ) (hz : z ∈ LpBall x0 eps p)
    (hlo : ∀ lo, kw.lower = some lo → ∀ i, lo i ≤ z i) (hup : ∀ up, kw.upper = some up → ∀ i, z i ≤ up i) (r : ℝ)
    (hr : getLowerBallKw x0 eps p w b kw = .ok r) : r ≤ affEval w b z := by
  have base : ∀ w r, getLowerBall x0 eps p w b = .ok r → r ≤ affEval w b z := by
    intro w r h
    obtain ⟨u, l, _, hl, h1, _⟩ := lpBall_sound x0 w eps b p hz
    rw [hl] at h; cases h; exact h1
  unfold getLowerBallKw at hr
  split at hr
  · exact base _ _ hr
  split at hr
  swap
  · exact base _ _ hr
  unfold getLowerBallFinetune at hr
  split at hr
  swap
  · exact base _ _ hr
  obtain ⟨fa, up, lo, ex⟩ := kw
  cases fa with
  | none => simp at hr
  | some a =>
    cases lo with
    | none =>
      cases up with
      | none => exact base _ _ (by simpa using hr)
      | some up =>
        simp only [bind, Except.bind, pure, Except.pure] at hr
        split at hr
        · simp at hr
        · rename_i v hv
          have h1 := base _ _ hv
          have h2 : ∀ i, min 0 (min 0 (w i) * (1 - a i)) * up i ≤ min 0 (w i) * (1 - a i) * z i := by
            intro i
            have ha1 := ha a rfl i
            have hz1 := hup up rfl i
            have hneg : min 0 (w i) * (1 - a i) ≤ 0 := mul_nonpos_of_nonpos_of_nonneg (min_le_left _ _) (by linarith)
            rw [min_eq_right hneg]
            exact mul_le_mul_of_nonpos_left hz1 hneg
          have h3 := Finset.sum_le_sum fun i (_ : i ∈ Finset.univ) => h2 i
          have h4 : affEval w b z = (∑ i, min 0 (w i) * (1 - a i) * z i)
              + affEval (fun i => min 0 (w i) * a i + max 0 (w i)) b z := by
            simp only [affEval, ← add_assoc, ← Finset.sum_add_distrib]
            congr 1
            refine Finset.sum_congr rfl fun i _ => ?_
            have : min 0 (w i) + max 0 (w i) = w i := by rw [min_add_max]; ring
            linear_combination z i * (-this)
          cases hr
          rw [h4]
          exact add_le_add h3 h1
    | some lo =>
      cases up with
      | none => simp at hr
      | some up =>
        simp only [bind, Except.bind, pure, Except.pure] at hr
        split at hr
        · simp at hr
        · rename_i v hv
          have h1 := base _ _ hv
          cases hr
          rw [sum_affEval_split w a b z, ← Finset.sum_add_distrib]
          refine add_le_add (Finset.sum_le_sum fun i _ => ?_) h1
          have hl := hlo lo rfl i
          have hu := hup up rfl i
          rcases le_total 0 (w i * (1 - a i)) with h | h
          · rw [max_eq_right h, min_eq_left h]
            nlinarith
          · rw [max_eq_left h, min_eq_right h]
            nlinarith

/-- C55, upper bounds, when nothing is finetuned.  Missing: the finetuned branches, where it is false
(`C55_upper_finetune_refuted`). -/
theorem C55_upper_partial (x0 : ι → ℝ) (eps : ℝ) (p : PVal) (w : ι → ℝ) (b : ℝ) (kw : BallKwargs ι)
    (hk : p = .inf ∨ ((kw.finetune = none ∨ kw.upper = none) ∧ kw.lower = none)) (z : ι → ℝ) (hz : z ∈ LpBall x0 eps p) (r : ℝ)
    (hr : getUpperBallKw x0 eps p w b kw = .ok r) : affEval w b z ≤ r := by
  have base : ∀ r, getUpperBall x0 eps p w b = .ok r → affEval w b z ≤ r := by
    intro r h
    obtain ⟨u, l, hu, _, _, h1⟩ := lpBall_sound x0 w eps b p hz
    rw [hu] at h; cases h; exact h1
  apply base
  unfold getUpperBallKw at hr
  rcases hk with rfl | ⟨hk, hl⟩
  · simpa using hr
  · have : getUpperBallFinetune x0 eps p w b kw = getUpperBall x0 eps p w b := by
      unfold getUpperBallFinetune
      rcases hk with h | h <;> simp [h, hl]
    rw [this] at hr
    simpa using hr

/-- C55 is false for every finetuning vector equal to 1: the "upper bound" is the lower bound. -/
theorem C55_upper_finetune_one (x0 : ι → ℝ) (eps : ℝ) (p : PVal) (hp : p ≠ .inf) (w : ι → ℝ) (b : ℝ) (up lo : ι → ℝ) (ex : Bool) :
    getUpperBallKw x0 eps p w b ⟨some fun _ => 1, some up, some lo, ex⟩ = getLowerBall x0 eps p w b ∧
    getUpperBallKw x0 eps p w b ⟨some fun _ => 1, some up, none, ex⟩ = getLowerBall x0 eps p w b := by
  have e1 : (fun i => min 0 (w i) * 1 + max 0 (w i)) = w := by
    funext i; rw [mul_one, min_add_max]; ring
  have e2 : (fun i => w i * 1) = w := by funext i; ring
  constructor
  · simp only [getUpperBallKw, hp, if_false, BallKwargs.nonempty, getUpperBallFinetune, Option.isSome, Bool.true_or, Bool.or_true,
      if_true, Bool.and_self, e2, sub_self, mul_zero, max_self, min_self, zero_mul, Finset.sum_const_zero, zero_add]
    cases getLowerBall x0 eps p w b <;> rfl
  · simp only [getUpperBallKw, hp, if_false, BallKwargs.nonempty, getUpperBallFinetune, Option.isSome, Bool.true_or, Bool.or_true,
      if_true, Bool.and_self, e1, sub_self, mul_zero, max_self, min_self, zero_mul, Finset.sum_const_zero, zero_add]
    cases getLowerBall x0 eps p w b <;> rfl

/-- C55 is false: with the form `x`, the Euclidean ball of radius 1 around 0 and finetuning parameter 1, the "upper bound" is `-1`,
although the value at the centre is `0`. -/
theorem C55_upper_finetune_refuted : ∃ (x0 w up lo a z : Fin 1 → ℝ) (r : ℝ), (∀ i, 0 ≤ a i ∧ a i ≤ 1) ∧ z ∈ LpBall x0 1 (.fin 2) ∧
    (∀ i, lo i ≤ z i ∧ z i ≤ up i) ∧ getUpperBallKw x0 1 (.fin 2) w 0 ⟨some a, some up, some lo, false⟩ = .ok r ∧
    r < affEval w 0 z := by
  refine ⟨fun _ => 0, fun _ => 1, fun _ => 1, fun _ => -1, fun _ => 1, fun _ => 0, -1, fun _ => by norm_num,
    Or.inr (Or.inr ⟨rfl, by norm_num, by norm_num⟩), fun _ => by norm_num, ?_, ?_⟩
  · rw [(C55_upper_finetune_one _ _ _ (by simp) _ _ _ _ _).1]
    simp [getLowerBall, getLqNorm, bind, Except.bind, pure, Except.pure]
  · simp [affEval]

/-- C55: giving the corner `lower` without `upper`, or without finetuning parameter, raises `KeyError` on a ball that is not a box. -/
theorem C55_lower_corner_alone (x0 : ι → ℝ) (eps : ℝ) (p : PVal) (hp : p ≠ .inf) (w : ι → ℝ) (b : ℝ) (kw : BallKwargs ι)
    (lo : ι → ℝ) (h : kw.lower = some lo) (h' : kw.upper = none ∨ kw.finetune = none) :
    getLowerBallKw x0 eps p w b kw = .error .keyError ∧ getUpperBallKw x0 eps p w b kw = .error .keyError := by
  obtain ⟨fa, up, lo', ex⟩ := kw
  simp only at h h'
  subst h
  cases fa <;> cases up <;>
    simp_all [getLowerBallKw, getUpperBallKw, BallKwargs.nonempty, getLowerBallFinetune, getUpperBallFinetune]

end

/-- Non-vacuity of C55: a finetuned lower bound that is neither the box nor the ball bound: form `x`, ball of radius 2 around 0 cut by
`[-1,1]`, parameter 1/2: the bound `-3/2` at the point `-1`. -/
example : getLowerBallKw (fun _ : Fin 1 => 0) 2 (.fin 1) (fun _ => 1) 0
      ⟨some fun _ => 1 / 2, some fun _ => 1, some fun _ => -1, false⟩ = .ok (-3 / 2) ∧
    (fun _ => -1) ∈ LpBall (fun _ : Fin 1 => (0 : ℝ)) 2 (.fin 1) := by
  constructor
  · simp [getLowerBallKw, BallKwargs.nonempty, getLowerBallFinetune, getLowerBall, getLqNorm, maxOver, bind, Except.bind, pure, Except.pure]
    norm_num
  · right; left; refine ⟨rfl, by norm_num⟩

end Decomon
