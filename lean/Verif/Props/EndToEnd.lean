import Verif.Model.EndToEnd
import Verif.Props.Pipeline
import Verif.Props.Wrapper

/-! Property C132: the functions of wrapper.py on a graph converted with a forward method. -/

namespace Decomon

/-- C132: the flattened outputs are in row-major order: the last axis varies fastest. -/
theorem C132_row_major (a : ℕ) (s : List ℕ) (k : Idx (a :: s)) :
    (ravel (a :: s) k : ℕ) = k 0 * s.prod + (ravel s fun i => k i.succ) := by
  change ((finProdFinEquiv (k 0, ravel s fun i => k i.succ) : Fin (a * s.prod)) : ℕ) = _
  rw [finProdFinEquiv_apply_val, add_comm, mul_comm]

/-- What is asked of a Keras graph: its nodes are listed parents first and all lead to the output `o`, at depth `M`; its layers are admissible. -/
structure KGraph.Ready {n : ℕ} (G : KGraph n) (order : List ℕ) (o M : ℕ) : Prop where
  sorted : Topological G.parents order
  out : o ∈ order
  depth : LongestFromInput G.parents o M
  used : ∀ v ∈ order, ∃ k, Walk G.parents v o k
  layers : ∀ v ∈ order, (G.op v).WF

/-- No node of the graph meets, over the box `b`, an activation whose own lines are wrong (see C131). -/
def KGraph.GoodBox {n : ℕ} (G : KGraph n) (m : Mode) (eps : ℝ) (slope : Slope) (order : List ℕ) (b : BoxOf (Fin n) ℝ) : Prop :=
  ∀ f, G.IsBounds boxDomain m eps slope
      (inputTensorsBox m (fun i => b.1 ((oneAxis n).symm i)) (fun i => b.2 ((oneAxis n).symm i))) order f →
    ∀ v ∈ order, (G.op v).Good boxDomain m eps (HList.ofNodes f (G.parents v))

/-- The function of the Keras model: `y` is the output, flattened, at the input `p`. -/
def KGraph.IsOutput {n : ℕ} (G : KGraph n) (order : List ℕ) (o : ℕ) (p : Fin n → ℝ) (y : Fin (G.sh o).prod → ℝ) : Prop :=
  ∃ z : (v : ℕ) → Idx (G.sh v) → ℝ, G.IsValue (fun i => p ((oneAxis n).symm i)) order z ∧ ∀ k, y (ravel (G.sh o) k) = z o k

section
variable {X : Type} {n : ℕ}

theorem wrapperOutput_toList (m : Mode) (x0 : X) {s : List ℕ} (f : Full X (Idx [n]) (Idx s) ℝ) :
    wrapperOutput m x0 s (f.toList m) = .ok (f.carried m x0).flat := by
  cases m <;> simp [wrapperOutput, unpackOutput, Full.toList, Full.toNine, extractForMode, readNine, Ten.toDom, Ten.toVec, Ten.toMat,
    Full.carried, getAffine, getIbp, Except.bind, Except.map, bind, pure, Except.pure]

theorem flat_valid {m : Mode} {s : List ℕ} {f : Full X (Idx [n]) (Idx s) ℝ} {p : Fin n → ℝ} {y : Idx s → ℝ}
    (v : Valid m false f (fun i => p ((oneAxis n).symm i)) y) : Valid m false f.flat p (fun k => y ((ravel s).symm k)) := by
  have e : ∀ (w : Idx [n] → ℝ) (b : ℝ), affEval (fun i => w (oneAxis n i)) b p = affEval w b fun i => p ((oneAxis n).symm i) := fun w b => by
    simp only [affEval]
    rw [← (oneAxis n).sum_comp]
    simp
  refine ⟨fun hi k => v.const hi _, fun ha k => ?_, by simp⟩
  have := v.aff ha ((ravel s).symm k)
  rw [← e, ← e] at this
  exact this

variable (G : KGraph n) (order : List ℕ) (o M : ℕ)

/-- C132: the Keras model has one output at every input. -/
theorem C132_output (hG : G.Ready order o M) (p : Fin n → ℝ) : ∃! y, G.IsOutput order o p y := by
  obtain ⟨⟨z, hz⟩, hu⟩ := C131_value G order hG.sorted fun i => p ((oneAxis n).symm i)
  refine ⟨fun k => z o ((ravel _).symm k), ⟨z, hz, fun k => by simp⟩, fun y ⟨z', hz', h⟩ => ?_⟩
  funext k
  have := h ((ravel _).symm k)
  rw [Equiv.apply_symm_apply] at this
  rw [this, hu z' z hz' hz o hG.out]

/-- C132: the converted model never raises and the caller can unpack its output; over a good box what it reads bounds the Keras model. -/
theorem C132_onBox_partial (hG : G.Ready order o M) (m mTo : Mode) (hm : m ≠ .ibp ∨ mTo = .ibp) (eps : ℝ) (he : 0 < eps) (slope : Slope)
    (fuel : ℕ) (nameOf : ℕ → String) :
    ∃ net : BoxOf (Fin n) ℝ → Full (BoxOf (Idx [n]) ℝ) (Fin n) (Fin (G.sh o).prod) ℝ,
      (∀ b, G.onBox m mTo eps slope M (fuel + 1) order nameOf o b = .ok (net b)) ∧
      ∀ b, G.GoodBox m eps slope order b → ∀ p ∈ Box b.1 b.2, ∀ y, G.IsOutput order o p y → Valid mTo false (net b) p y := by
  have key : ∀ b : BoxOf (Fin n) ℝ, ∃ f, G.onBox m mTo eps slope M (fuel + 1) order nameOf o b = .ok f ∧
      (G.GoodBox m eps slope order b → ∀ p ∈ Box b.1 b.2, ∀ y, G.IsOutput order o p y → Valid mTo false f p y) := fun b => by
    obtain ⟨f, hf, e⟩ := C131_convert boxDomain m mTo eps slope
      (inputTensorsBox m (fun i => b.1 ((oneAxis n).symm i)) (fun i => b.2 ((oneAxis n).symm i))) G M fuel order hG.sorted nameOf o hG.out hG.depth hG.used
    refine ⟨_, by rw [KGraph.onBox, e]; exact wrapperOutput_toList _ _ _, fun hg p hp y ⟨z, hz, hy⟩ => ?_⟩
    have hp' : (fun i => p ((oneAxis n).symm i)) ∈ Box (fun i => b.1 ((oneAxis n).symm i)) (fun i => b.2 ((oneAxis n).symm i)) := fun i => hp _
    obtain ⟨hx, v⟩ := bounds_valid boxDomain m eps he slope _ _ (boxDomain_sound _ _) G order hG.sorted hG.layers f hf (hg f hf)
      _ hp' (C27_input_box m _ _ _ hp') z hz o hG.out
    have w := C29_convert2Mode_valid boxDomain m mTo hm (f o) _ (by rw [hx]; exact boxDomain_sound _ _) _ hp' _ v
    have := flat_valid (carried_valid (x0 := (inputTensorsBox m (fun i => b.1 ((oneAxis n).symm i)) (fun i => b.2 ((oneAxis n).symm i))).x) w)
    have ey : (fun k => z o ((ravel (G.sh o)).symm k)) = y := by
      funext k
      rw [← hy]; simp
    rw [ey] at this
    exact this
  choose net h1 h2 using key
  exact ⟨net, h1, h2⟩

end

section
variable {n : ℕ} {ι κ X α : Type*} [Fintype ι] [Fintype κ] [Nonempty κ] [Field α] [LinearOrder α]

theorem ibpScoreErr_one (N d : ℕ) : ibpScoreErr N [d] = none := by
  simp [ibpScoreErr, broadcastRev, Except.map]

/-- C132: with one axis, or in affine mode, `get_adv_box` does not depend on the shape of the output. -/
theorem C132_adv_shape (s : List ℕ) (net : BoxOf (Fin (n + 1)) α → Full X (Fin (n + 1)) κ α) (m : Mode) (hs : s.length = 1 ∨ m = .affine)
    (batch nSub : ℕ) (rows : List (AdvSample (Fin (n + 1)) κ α)) : getAdvBoxOf s net m batch nSub rows = getAdvBox net m batch nSub rows := by
  have e : advBaseOf s net m = advBase net m := by
    funext rows
    have : (if getIbp m then ibpScoreErr rows.length s else none) = none := by
      rcases hs with h | rfl
      · obtain ⟨d, rfl⟩ := List.length_eq_one_iff.1 h
        rw [ibpScoreErr_one, ite_self]
      · rfl
    rw [advBaseOf, this]
    split
    · next h => rw [advBase, if_pos h]
    · rfl
  rw [getAdvBoxOf, getAdvBox, e]
  rfl

/-- C132 is false for `get_adv_box` in ibp and hybrid mode when the output has several axes (and more than one entry): the call raises. -/
theorem C132_adv_axes_refuted (a b : ℕ) (t : List ℕ) (h1 : 1 < (a :: b :: t).prod) (net : BoxOf ι α → Full X ι κ α) (m : Mode)
    (hm : getIbp m = true) (rows : List (AdvSample ι κ α)) (hb : badBoxes (rows.map AdvSample.box) = false) :
    advBaseOf (a :: b :: t) net m rows = .error .valueError := by
  have key : ibpScoreErr rows.length (a :: b :: t) = some .valueError := by
    obtain ⟨e1, e2, r, hr⟩ : ∃ e1 e2 r, (a :: b :: t).reverse = e1 :: e2 :: r := by
      have hl : (a :: b :: t).reverse.length = t.length + 2 := by simp
      match h : (a :: b :: t).reverse with
      | [] => rw [h] at hl; simp at hl
      | [_] => rw [h] at hl; simp at hl
      | e1 :: e2 :: r => exact ⟨e1, e2, r, rfl⟩
    have hp : (a :: b :: t).prod = e1 * (e2 * r.prod) := by rw [← List.prod_reverse, hr, List.prod_cons, List.prod_cons]
    have h2 : (rows.length :: a :: a :: b :: t).reverse = e1 :: e2 :: (r ++ [a, rows.length]) := by
      rw [List.reverse_cons, List.reverse_cons, hr]; simp
    simp only [ibpScoreErr]
    rw [if_neg]
    generalize (a :: b :: t).prod = P at *
    rw [h2]
    intro h
    have hmax : max e1 P = e1 ∧ max e2 P = e2 := by
      simp only [broadcastRev] at h
      split at h
      · split at h
        · simp only [Except.map] at h
          split at h
          · simp at h
          · next h' =>
            simp only [Except.ok.injEq, List.cons.injEq] at h
            split at h'
            · simp at h'
            · simp only [Except.ok.injEq] at h'
              rw [← h'] at h
              simp only [List.cons.injEq] at h
              exact ⟨h.1, h.2.1⟩
        · simp [Except.map] at h
      · simp at h
    have g1 : P ≤ e1 := by rw [← hmax.1]; exact le_max_right _ _
    have g2 : P ≤ e2 := by rw [← hmax.2]; exact le_max_right _ _
    have g3 : 1 ≤ r.prod := by
      rcases Nat.eq_zero_or_pos r.prod with h0 | h0
      · rw [h0] at hp; omega
      · exact h0
    have g4 : P * P ≤ P := by
      calc P * P ≤ e1 * e2 := Nat.mul_le_mul g1 g2
        _ ≤ e1 * (e2 * r.prod) := Nat.mul_le_mul_left _ (Nat.le_mul_of_pos_right _ g3)
        _ = P := hp.symm
    nlinarith
  simp only [advBaseOf, hb, hm, if_true, key, Bool.false_eq_true, if_false]

end

section
variable {n : ℕ} (G : KGraph (n + 1)) (order : List ℕ) (o M : ℕ)

/-- C132: `get_range_box` on the converted graph.  The bounds of entry `c` of sample `i` are at position `i * d + c`, `d` being the number of
outputs.  Missing: graphs and boxes that are not good, for which the claim is false (C131), and sub-boxes (C36). -/
theorem C132_range_partial (hG : G.Ready order o M) (m mTo : Mode) (hm : m ≠ .ibp ∨ mTo = .ibp) (eps : ℝ) (he : 0 < eps) (slope : Slope)
    (fuel : ℕ) (nameOf : ℕ → String) (batch nSub : ℕ) (hn : nSub ≤ 1) (bs : List (BoxOf (Fin (n + 1)) ℝ))
    (hb : ∀ b ∈ bs, ∀ i, b.1 i ≤ b.2 i) (hg : ∀ b ∈ bs, G.GoodBox m eps slope order b) :
    ∃ net us ls, (∀ b, G.onBox m mTo eps slope M (fuel + 1) order nameOf o b = .ok (net b)) ∧
      getRangeBox net mTo batch nSub bs = .ok (us, ls) ∧ us.length = bs.length * (G.sh o).prod ∧ ls.length = bs.length * (G.sh o).prod ∧
      ∀ i b, bs[i]? = some b → ∀ c : Fin (G.sh o).prod, ∃ u l, us[i * (G.sh o).prod + c]? = some u ∧
        ls[i * (G.sh o).prod + c]? = some l ∧ ∀ p ∈ Box b.1 b.2, ∀ y, G.IsOutput order o p y → l ≤ y c ∧ y c ≤ u := by
  obtain ⟨net, h1, h2⟩ := C132_onBox_partial G order o M hG m mTo hm eps he slope fuel nameOf
  choose F hF hu using C132_output G order o M hG
  obtain ⟨us, ls, e, lu, ll, h⟩ := C34_range_sound net mTo F batch nSub hn bs hb fun b hb' p hp => h2 b (hg b hb') p hp _ (hF p)
  refine ⟨net, us, ls, h1, e, lu, ll, fun i b hi c => ?_⟩
  obtain ⟨u, l, eu, el, hc⟩ := h i b hi c
  refine ⟨u, l, eu, el, fun p hp y hy => ?_⟩
  rw [hu p y hy]
  exact hc p hp

/-- C132: `get_adv_box` on the converted graph, with or without sub-boxes: a negative score means that over the whole box every source label is
strictly above every target label.  Missing: graphs and (sub-)boxes that are not good, outputs with several axes except in affine mode. -/
theorem C132_adv_partial [Nonempty (Fin (G.sh o).prod)] (hG : G.Ready order o M) (m mTo : Mode) (hm : m ≠ .ibp ∨ mTo = .ibp) (eps : ℝ)
    (he : 0 < eps) (slope : Slope) (fuel : ℕ) (nameOf : ℕ → String) (batch nSub : ℕ)
    (rows : List (AdvSample (Fin (n + 1)) (Fin (G.sh o).prod) ℝ)) (hb : ∀ r ∈ rows, ∀ i, r.box.1 i ≤ r.box.2 i)
    (hs : (G.sh o).length = 1 ∨ mTo = .affine) (hg : ∀ b ∈ (subBoxes nSub (rows.map AdvSample.box)).1, G.GoodBox m eps slope order b) :
    ∃ net scs, (∀ b, G.onBox m mTo eps slope M (fuel + 1) order nameOf o b = .ok (net b)) ∧
      getAdvBoxOf (G.sh o) net mTo batch nSub rows = .ok scs ∧ scs.length = rows.length ∧
      ∀ (i : ℕ) (r : AdvSample (Fin (n + 1)) (Fin (G.sh o).prod) ℝ) (sc : ℝ), rows[i]? = some r → scs[i]? = some sc → sc < 0 →
        ∀ p ∈ Box r.box.1 r.box.2, ∀ y, G.IsOutput order o p y → ∀ t s, r.tgt t = 1 → r.src s = 1 → y t < y s := by
  obtain ⟨net, h1, h2⟩ := C132_onBox_partial G order o M hG m mTo hm eps he slope fuel nameOf
  choose F hF hu using C132_output G order o M hG
  obtain ⟨scs, e, l, h⟩ := C33_negative_is_robust net mTo F batch nSub rows hb fun b hb' p hp => h2 b (hg b hb') p hp _ (hF p)
  refine ⟨net, scs, h1, by rw [C132_adv_shape _ net mTo hs, e], l, fun i r sc hr hsc hneg p hp y hy => ?_⟩
  rw [hu p y hy]
  exact h i r sc hr hsc hneg p hp

/-- Every box is good in ibp mode. -/
theorem goodBox_ibp (eps : ℝ) (slope : Slope) (b : BoxOf (Fin (n + 1)) ℝ) : G.GoodBox .ibp eps slope order b :=
  fun _ _ v _ => KOp.good_ibp boxDomain eps (G.op v) _

/-- C132 for `forward-ibp`: no graph and no box is excluded. -/
theorem C132_range_ibp (hG : G.Ready order o M) (eps : ℝ) (he : 0 < eps) (slope : Slope) (fuel : ℕ) (nameOf : ℕ → String) (batch nSub : ℕ)
    (hn : nSub ≤ 1) (bs : List (BoxOf (Fin (n + 1)) ℝ)) (hb : ∀ b ∈ bs, ∀ i, b.1 i ≤ b.2 i) :
    ∃ net us ls, (∀ b, G.onBox .ibp .ibp eps slope M (fuel + 1) order nameOf o b = .ok (net b)) ∧
      getRangeBox net .ibp batch nSub bs = .ok (us, ls) ∧ us.length = bs.length * (G.sh o).prod ∧ ls.length = bs.length * (G.sh o).prod ∧
      ∀ i b, bs[i]? = some b → ∀ c : Fin (G.sh o).prod, ∃ u l, us[i * (G.sh o).prod + c]? = some u ∧
        ls[i * (G.sh o).prod + c]? = some l ∧ ∀ p ∈ Box b.1 b.2, ∀ y, G.IsOutput order o p y → l ≤ y c ∧ y c ≤ u :=
  C132_range_partial G order o M hG .ibp .ibp (.inr rfl) eps he slope fuel nameOf batch nSub hn bs hb fun b _ => goodBox_ibp G order eps slope b

/-- C132 for `forward-ibp`: the certificates of `get_adv_box`, with or without sub-boxes, for outputs with one axis. -/
theorem C132_adv_ibp (hs : (G.sh o).length = 1) [Nonempty (Fin (G.sh o).prod)] (hG : G.Ready order o M) (eps : ℝ) (he : 0 < eps) (slope : Slope) (fuel : ℕ)
    (nameOf : ℕ → String) (batch nSub : ℕ) (rows : List (AdvSample (Fin (n + 1)) (Fin (G.sh o).prod) ℝ))
    (hb : ∀ r ∈ rows, ∀ i, r.box.1 i ≤ r.box.2 i) :
    ∃ net scs, (∀ b, G.onBox .ibp .ibp eps slope M (fuel + 1) order nameOf o b = .ok (net b)) ∧
      getAdvBoxOf (G.sh o) net .ibp batch nSub rows = .ok scs ∧ scs.length = rows.length ∧
      ∀ (i : ℕ) (r : AdvSample (Fin (n + 1)) (Fin (G.sh o).prod) ℝ) (sc : ℝ), rows[i]? = some r → scs[i]? = some sc → sc < 0 →
        ∀ p ∈ Box r.box.1 r.box.2, ∀ y, G.IsOutput order o p y → ∀ t s, r.tgt t = 1 → r.src s = 1 → y t < y s :=
  C132_adv_partial G order o M hG .ibp .ibp (.inr rfl) eps he slope fuel nameOf batch nSub rows hb (.inl hs) fun b _ => goodBox_ibp G order eps slope b

end

/-! ### Balls -/

section
variable {n : ℕ}

theorem lpBall_oneAxis {eps : ℝ} {q : PVal} {x p : Fin n → ℝ} (hp : p ∈ LpBall x eps q) :
    (fun i => p ((oneAxis n).symm i)) ∈ LpBall (fun i => x ((oneAxis n).symm i)) eps q := by
  have e : ∀ g : Fin n → ℝ, ∑ i, g ((oneAxis n).symm i) = ∑ i, g i := fun g => (oneAxis n).symm.sum_comp g
  rcases hp with ⟨h1, h2⟩ | ⟨h1, h2⟩ | ⟨h1, h0, h2⟩
  · exact .inl ⟨h1, fun i => h2 _⟩
  · exact .inr (.inl ⟨h1, by rw [e fun i => |p i - x i|]; exact h2⟩)
  · exact .inr (.inr ⟨h1, h0, by rw [e fun i => (p i - x i) ^ 2]; exact h2⟩)

variable (G : KGraph (n + 1)) (order : List ℕ) (o M : ℕ)

/-- C132: `get_range_noise` on a graph converted for the ball.  Missing: as above, and other values of `p` raise (C39). -/
theorem C132_noise_partial (hG : G.Ready order o M) (m mTo : Mode) (hm : m ≠ .ibp ∨ mTo = .ibp) (leps : ℝ) (he : 0 < leps)
    (slope : Slope) (eps : ℝ) (q : PVal) (hq : q = .inf ∨ q = .fin 1 ∨ q = .fin 2) (fuel : ℕ) (nameOf : ℕ → String) (x : Fin (n + 1) → ℝ)
    (hg : ∀ f, G.IsBounds (ballDomain eps q) m leps slope (inputTensorsBall m eps q fun i => x ((oneAxis (n + 1)).symm i)) order f →
      ∀ v ∈ order, (G.op v).Good (ballDomain eps q) m leps (HList.ofNodes f (G.parents v))) :
    ∃ net, G.onBall m mTo leps slope eps q M (fuel + 1) order nameOf o x = .ok net ∧
      ∀ k, ∃ u l, noiseUpper mTo eps q x net k = .ok u ∧ noiseLower mTo eps q x net k = .ok l ∧
        ∀ p ∈ LpBall x eps q, ∀ y, G.IsOutput order o p y → l ≤ y k ∧ y k ≤ u := by
  obtain ⟨f, hf, e⟩ := C131_convert (ballDomain eps q) m mTo leps slope (inputTensorsBall m eps q fun i => x ((oneAxis (n + 1)).symm i)) G M fuel order
    hG.sorted nameOf o hG.out hG.depth hG.used
  refine ⟨_, by rw [KGraph.onBall, e]; exact wrapperOutput_toList _ _ _, fun k => ?_⟩
  choose F hF hu using C132_output G order o M hG
  have hv : ∀ p ∈ LpBall x eps q, Valid mTo false
      (((convert2Mode (ballDomain eps q) m mTo (f o)).carried mTo fun i => x ((oneAxis (n + 1)).symm i)).flat) p (F p) := fun p hp => by
    have hp' := lpBall_oneAxis hp
    obtain ⟨z, hz, hy⟩ := hF p
    obtain ⟨hx, v⟩ := bounds_valid (ballDomain eps q) m leps he slope _ _ (ball_input_sound m eps q _) G order hG.sorted hG.layers f hf (hg f hf)
      _ hp' (C27_input_ball m eps q _ _ hp') z hz o hG.out
    have w := C29_convert2Mode_valid (ballDomain eps q) m mTo hm (f o) _ (by rw [hx]; exact ball_input_sound m eps q _) _ hp' _ v
    have := flat_valid (carried_valid (x0 := fun i => x ((oneAxis (n + 1)).symm i)) w)
    have ey : (fun k => z o ((ravel (G.sh o)).symm k)) = F p := by
      funext k
      rw [← hy]; simp
    rwa [ey] at this
  obtain ⟨u, l, e1, e2, h⟩ := C39_noise_sound_partial mTo eps q x _ F hq hv k
  refine ⟨u, l, e1, e2, fun p hp y hy => ?_⟩
  rw [hu p y hy]
  exact h p hp

end

/-! ### A concrete graph -/

/-- The graph `expGraph` is ready. -/
theorem expGraph_ready : expGraph.Ready [0, 1, 2] 2 2 := by
  obtain ⟨h1, h2, h3⟩ := expGraph_ok
  refine ⟨h1, by simp, h2, h3, fun v hv => ?_⟩
  have : v = 0 ∨ v = 1 ∨ v = 2 := by simpa using hv
  rcases this with rfl | rfl | rfl <;> exact trivial

/-- The bounds of `exp(x) * x * exp(x)` over `[1, 2]` and over `[-1, 3]`, by `get_range_box` with batches of one sample. -/
example : ∃ net us ls, (∀ b, expGraph.onBox .ibp .ibp (1 / 10000000) .vSlope 2 4 [0, 1, 2] (fun v => toString v) 2 b = .ok (net b)) ∧
    getRangeBox net .ibp 1 1 [(fun _ => 1, fun _ => 2), (fun _ => -1, fun _ => 3)] = .ok (us, ls) ∧ us.length = 2 ∧ ls.length = 2 := by
  obtain ⟨net, us, ls, h1, h2, h3, h4, -⟩ := C132_range_ibp (n := 0) expGraph [0, 1, 2] 2 2 expGraph_ready (1 / 10000000) (by norm_num) .vSlope 3
    (fun v => toString v) 1 1 le_rfl [(fun _ => 1, fun _ => 2), (fun _ => -1, fun _ => 3)] (by
      intro b hb
      simp only [List.mem_cons, List.not_mem_nil, or_false] at hb
      rcases hb with rfl | rfl <;> intro i <;> norm_num)
  exact ⟨net, us, ls, h1, h2, h3, h4⟩

/-- Two inputs, a `Dropout` and the exponential: two outputs. -/
def twoOutGraph : KGraph 2 where
  parents := fun v => match v with | 1 => [0] | 2 => [1] | _ => []
  sh := fun _ => [2]
  op := fun v => match v with
    | 0 => .input
    | 1 => .layer (.lay .skip)
    | 2 => .layer (.act .exponential)
    | _ + 3 => .input

theorem twoOutGraph_ready : twoOutGraph.Ready [0, 1, 2] 2 2 := by
  obtain ⟨h1, h2, h3⟩ := chain3_ok twoOutGraph.parents rfl rfl (by simp [twoOutGraph]) fun v p hp => by
    match v, hp with
    | 0, hp => simp [twoOutGraph] at hp
    | 1, hp => simp [twoOutGraph] at hp; omega
    | 2, hp => simp [twoOutGraph] at hp; omega
    | _ + 3, hp => simp [twoOutGraph] at hp
  refine ⟨h1, by simp, h2, h3, fun v hv => ?_⟩
  have : v = 0 ∨ v = 1 ∨ v = 2 := by simpa using hv
  rcases this with rfl | rfl | rfl <;> exact trivial

/-- `get_adv_box` with four sub-boxes on that model, over `[0, 1] × [2, 3]`, source label `1` and target label `0`. -/
example : ∃ net scs, (∀ b, twoOutGraph.onBox .ibp .ibp (1 / 10000000) .vSlope 2 4 [0, 1, 2] (fun v => toString v) 2 b = .ok (net b)) ∧
    getAdvBoxOf [2] net .ibp 1 4 [⟨(![0, 2], ![1, 3]), ![0, 1], ![1, 0]⟩] = .ok scs ∧ scs.length = 1 ∧
    ∀ sc, scs[0]? = some sc → sc < 0 → ∀ p ∈ Box ![(0 : ℝ), 2] ![1, 3], ∀ y, twoOutGraph.IsOutput [0, 1, 2] 2 p y →
      y (⟨0, by decide⟩ : Fin [2].prod) < y (⟨1, by decide⟩ : Fin [2].prod) := by
  obtain ⟨net, scs, h1, h2, h3, h4⟩ := @C132_adv_ibp 1 twoOutGraph [0, 1, 2] 2 2 rfl ⟨⟨0, by decide⟩⟩ twoOutGraph_ready (1 / 10000000) (by norm_num)
    .vSlope 3 (fun v => toString v) 1 4 [⟨(![0, 2], ![1, 3]), ![0, 1], ![1, 0]⟩] (by
      intro r hr
      simp only [List.mem_cons, List.not_mem_nil, or_false] at hr
      rcases hr with rfl
      intro i
      fin_cases i <;> norm_num)
  exact ⟨net, scs, h1, h2, h3, fun sc hsc hneg p hp y hy => h4 0 _ sc rfl hsc hneg p hp y hy _ _ rfl rfl⟩

/-- `ravel` on the shape `(2, 3)`: the entry `(1, 2)` is the last one. -/
example : (ravel [2, 3] (fun i => match i with | ⟨0, _⟩ => (1 : Fin 2) | ⟨1, _⟩ => (2 : Fin 3)) : ℕ) = 5 := by decide +kernel

/-- Outputs of shape `(2, 3)` in batches of four, and of shape `(3,)`. -/
example : ibpScoreErr 4 [2, 3] = some .valueError ∧ ibpScoreErr 4 [3] = none := by decide +kernel

end Decomon
