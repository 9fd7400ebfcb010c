import Verif.Lemmas.FloatAffine
import Verif.Lemmas.Exact

/-!
C151: the method `forward-affine` in rounded arithmetic, from the layers to the certificates.
-/

namespace Decomon

section
variable {ι κ κ' α : Type} [Fintype ι] [Field α] [LinearOrder α] [IsStrictOrderedRing α] {rd : α → α} {δ : α}

theorem peak_le (b : BoxOf ι α) (i : ι) : |b.1 i| ≤ boxPeak b i ∧ |b.2 i| ≤ boxPeak b i := ⟨le_max_left _ _, le_max_right _ _⟩

theorem peak_point (b : BoxOf ι α) {p : ι → α} (hp : p ∈ Box b.1 b.2) (i : ι) : |p i| ≤ boxPeak b i := by
  rcases le_total 0 (p i) with h | h
  · rw [abs_of_nonneg h]
    exact ((hp i).2.trans (le_abs_self _)).trans (le_max_right _ _)
  · rw [abs_of_nonpos h]
    exact ((neg_le_neg (hp i).1).trans (neg_le_abs _)).trans (le_max_left _ _)

theorem input_size [DecidableEq ι] (b : BoxOf ι α) (X : ι → α) (k : ι) : (inputTensorsBox .affine b.1 b.2).sizeAff X k ≤ X k := by
  have : ∀ i, max |if i = k then (1 : α) else 0| |if i = k then (1 : α) else 0| * X i = if i = k then X i else 0 := fun i => by split <;> simp
  simp only [Full.sizeAff, inputTensorsBox, getAffine, if_true, this]
  simp

/-- C151: the affine bounds computed in rounded arithmetic are not larger than `sizeAff`, and bound the network up to `slackAff`: both are known from
the weights, the precision and the box before anything is computed. -/
theorem C151_rounded [DecidableEq ι] (hδ : 0 ≤ δ) (hδ1 : δ < 1) (h : RelError rd δ) (eps : α) (he : 0 < eps) (sl : Slope) (bn : α) (hbn : 0 ≤ bn)
    (b : BoxOf ι α) (n : Net α ι κ) (hn : n.WF) (g : Full (BoxOf ι α) ι κ α) (hg : n.RoundedAffine rd eps sl bn (inputTensorsBox .affine b.1 b.2) g)
    (p : ι → α) (hp : p ∈ Box b.1 b.2) :
    (∀ k, g.sizeAff (boxPeak b) k ≤ n.sizeAff δ bn (boxPeak b) k) ∧ Near .affine g p (n.eval p) (n.slackAff δ eps bn (boxPeak b)) :=
  Net.float_near hδ hδ1 h he hbn (boxDomain_sound b.1 b.2) hp (peak_le b) (peak_point b hp) (C27_input_box .affine b.1 b.2 p hp)
    (fun i => input_size b _ i) hn hg

theorem upper_eq (b : BoxOf ι α) (w : ι → α) (c : α) :
    getUpperBox b.1 b.2 w c = (∑ i, b.2 i * max 0 (w i)) + (∑ i, b.1 i * min 0 (w i)) + c := by
  rw [getUpperBox, ← Finset.sum_add_distrib]
  congr 1
  exact Finset.sum_congr rfl fun i _ => by rw [max_comm, min_comm]; ring

theorem lower_eq (b : BoxOf ι α) (w : ι → α) (c : α) :
    getLowerBox b.1 b.2 w c = (∑ i, b.1 i * max 0 (w i)) + (∑ i, b.2 i * min 0 (w i)) + c := by
  rw [getLowerBox, ← Finset.sum_add_distrib]
  congr 1
  exact Finset.sum_congr rfl fun i _ => by rw [max_comm, min_comm]; ring

/-- C151: the range that `get_range_box` computes in rounded arithmetic encloses the outputs up to `rangeSlack`. -/
theorem C151_range [DecidableEq ι] (hδ : 0 ≤ δ) (hδ1 : δ < 1) (h : RelError rd δ) (eps : α) (he : 0 < eps) (sl : Slope) (bn : α) (hbn : 0 ≤ bn)
    (b : BoxOf ι α) (n : Net α ι κ) (hn : n.WF) (g : Full (BoxOf ι α) ι κ α) (hg : n.RoundedAffine rd eps sl bn (inputTensorsBox .affine b.1 b.2) g)
    (k : κ) (U L : α) (hr : RangeRounded rd b g k U L) (p : ι → α) (hp : p ∈ Box b.1 b.2) :
    L - n.rangeSlack δ eps bn (boxPeak b) k ≤ n.eval p k ∧ n.eval p k ≤ U + n.rangeSlack δ eps bn (boxPeak b) k := by
  obtain ⟨hM, v⟩ := C151_rounded hδ hδ1 h eps he sl bn hbn b n hn g hg p hp
  obtain ⟨⟨x, y, hx, hy, rfl⟩, x', y', hx', hy', rfl⟩ := hr
  have hX0 : ∀ i, 0 ≤ boxPeak b i := fun i => (abs_nonneg _).trans (peak_le b i).1
  have e1 := split_error hδ h b.2 b.1 (fun i => g.wu i k) (boxPeak b) (fun i => (peak_le b i).2) (fun i => (peak_le b i).1) (g.bu k) x y hx hy
  have e2 := split_error hδ h b.1 b.2 (fun i => g.wl i k) (boxPeak b) (fun i => (peak_le b i).1) (fun i => (peak_le b i).2) (g.bl k) x' y' hx' hy'
  rw [← upper_eq] at e1
  rw [← lower_eq] at e2
  have s1 : (∑ i, |g.wu i k| * boxPeak b i) + |g.bu k| ≤ n.sizeAff δ bn (boxPeak b) k :=
    (add_le_add (Finset.sum_le_sum fun i _ => mul_le_mul_of_nonneg_right (le_max_left _ _) (hX0 i)) (le_max_left _ _)).trans (hM k)
  have s2 : (∑ i, |g.wl i k| * boxPeak b i) + |g.bl k| ≤ n.sizeAff δ bn (boxPeak b) k :=
    (add_le_add (Finset.sum_le_sum fun i _ => mul_le_mul_of_nonneg_right (le_max_right _ _) (hX0 i)) (le_max_right _ _)).trans (hM k)
  have f1 := abs_le.1 (e1.trans (mul_le_mul_of_nonneg_left s1 (gamma_nonneg hδ _)))
  have f2 := abs_le.1 (e2.trans (mul_le_mul_of_nonneg_left s2 (gamma_nonneg hδ _)))
  have q1 := getUpperBox_sound hp (fun i => g.wu i k) (g.bu k)
  have q2 := getLowerBox_sound hp (fun i => g.wl i k) (g.bl k)
  have a := v.aff rfl k
  simp only [Net.rangeSlack]
  constructor <;> linarith [a.1, a.2]

/-- C151: the score that `get_adv_box` computes in rounded arithmetic bounds the difference of the two outputs up to `scoreSlack`. -/
theorem C151_score [DecidableEq ι] (hδ : 0 ≤ δ) (hδ1 : δ < 1) (h : RelError rd δ) (eps : α) (he : 0 < eps) (sl : Slope) (bn : α) (hbn : 0 ≤ bn)
    (b : BoxOf ι α) (n : Net α ι κ) (hn : n.WF) (g : Full (BoxOf ι α) ι κ α) (hg : n.RoundedAffine rd eps sl bn (inputTensorsBox .affine b.1 b.2) g)
    (j c : κ) (score : α) (hs : ScoreRounded rd b g j c score) (p : ι → α) (hp : p ∈ Box b.1 b.2) :
    n.eval p j - n.eval p c ≤ score + n.scoreSlack δ eps bn (boxPeak b) j c := by
  obtain ⟨hM, v⟩ := C151_rounded hδ hδ1 h eps he sl bn hbn b n hn g hg p hp
  obtain ⟨x, y, hx, hy, rfl⟩ := hs
  have hX0 : ∀ i, 0 ≤ boxPeak b i := fun i => (abs_nonneg _).trans (peak_le b i).1
  have ab : ∀ a, |rd a| ≤ (1 + δ) * |a| := fun a => by
    have := abs_add_le (rd a - a) a
    rw [sub_add_cancel] at this
    linarith [h a]
  have e1 := split_error hδ h b.2 b.1 (fun i => rd (g.wu i j - g.wl i c)) (boxPeak b) (fun i => (peak_le b i).2) (fun i => (peak_le b i).1)
    (rd (g.bu j - g.bl c)) x y hx hy
  rw [← upper_eq] at e1
  have q1 := getUpperBox_sound hp (fun i => rd (g.wu i j - g.wl i c)) (rd (g.bu j - g.bl c))
  have e2 := aff_close (fun i => g.wu i j - g.wl i c) (fun i => rd (g.wu i j - g.wl i c)) p (boxPeak b) (fun i => δ * |g.wu i j - g.wl i c|)
    (g.bu j - g.bl c) (rd (g.bu j - g.bl c)) _ (peak_point b hp) (fun i => h _) (h _)
  have S : (∑ i, |g.wu i j - g.wl i c| * boxPeak b i) + |g.bu j - g.bl c| ≤ n.sizeAff δ bn (boxPeak b) j + n.sizeAff δ bn (boxPeak b) c := by
    have t1 : ∑ i, |g.wu i j - g.wl i c| * boxPeak b i ≤
        ∑ i, max |g.wu i j| |g.wl i j| * boxPeak b i + ∑ i, max |g.wu i c| |g.wl i c| * boxPeak b i := by
      rw [← Finset.sum_add_distrib]
      refine Finset.sum_le_sum fun i _ => ?_
      rw [← add_mul]
      exact mul_le_mul_of_nonneg_right ((abs_sub _ _).trans (add_le_add (le_max_left _ _) (le_max_right _ _))) (hX0 i)
    have t2 : |g.bu j - g.bl c| ≤ max |g.bu j| |g.bl j| + max |g.bu c| |g.bl c| := (abs_sub _ _).trans (add_le_add (le_max_left _ _) (le_max_right _ _))
    have m1 := hM j
    have m2 := hM c
    simp only [Full.sizeAff] at m1 m2
    linarith
  have S' : (∑ i, |rd (g.wu i j - g.wl i c)| * boxPeak b i) + |rd (g.bu j - g.bl c)| ≤
      (1 + δ) * (n.sizeAff δ bn (boxPeak b) j + n.sizeAff δ bn (boxPeak b) c) := by
    refine le_trans ?_ (mul_le_mul_of_nonneg_left S (by linarith))
    rw [mul_add, Finset.mul_sum]
    refine add_le_add (Finset.sum_le_sum fun i _ => ?_) (ab _)
    rw [← mul_assoc]
    exact mul_le_mul_of_nonneg_right (ab _) (hX0 i)
  have f1 := abs_le.1 (e1.trans (mul_le_mul_of_nonneg_left S' (gamma_nonneg hδ _)))
  have e3 : (∑ i, δ * |g.wu i j - g.wl i c| * boxPeak b i) + δ * |g.bu j - g.bl c| ≤
      δ * (n.sizeAff δ bn (boxPeak b) j + n.sizeAff δ bn (boxPeak b) c) := by
    refine le_trans (le_of_eq ?_) (mul_le_mul_of_nonneg_left S hδ)
    rw [mul_add, Finset.mul_sum]
    simp only [mul_assoc]
  have f2 := abs_le.1 (e2.trans e3)
  have e4 : affEval (fun i => g.wu i j - g.wl i c) (g.bu j - g.bl c) p =
      affEval (fun i => g.wu i j) (g.bu j) p - affEval (fun i => g.wl i c) (g.bl c) p := by
    simp only [affEval, sub_mul, Finset.sum_sub_distrib]; ring
  rw [e4] at f2
  have a1 := (v.aff rfl j).2
  have a2 := (v.aff rfl c).1
  have f1' := f1.1
  have f2' := f2.1
  simp only [Net.scoreSlack, pow_succ (1 + δ) (Fintype.card ι + 2)]
  nlinarith

/-! ### The outputs that Keras computes -/

theorem roundError_nonneg (hδ : 0 ≤ δ) (bk : α → α → α → α → α → α) (hb0 : ∀ g b m s x, 0 ≤ bk g b m s x) : (roundError δ bk).Nonneg where
  lay l A h o := by
    cases l with
    | dense kernel bias =>
      exact mul_nonneg (gamma_nonneg hδ _) (add_nonneg (Finset.sum_nonneg fun t _ => mul_nonneg (abs_nonneg _) (h t)) (abs_nonneg _))
    | linear L kernel bias =>
      refine mul_nonneg (gamma_nonneg hδ _) (add_nonneg (Finset.sum_nonneg fun t _ => mul_nonneg (abs_nonneg _) ?_) (abs_nonneg _))
      cases L.src o t with
      | none => exact le_rfl
      | some q => exact h q
    | relu gf gb => exact le_rfl
    | batchNorm gamma beta mean sd => exact hb0 _ _ _ _ _
    | reshape e => exact le_rfl
    | skip => exact le_rfl
  merge op a b ha hb := by
    refine mul_nonneg (gamma_nonneg hδ _) ?_
    cases op <;> simp only [MergeOp.size] <;> positivity

theorem Net.runsIbp_point (E : OpError α) (hE : E.Nonneg) (eps : α) (sl : Slope) (p : ι → α) (n : Net α ι κ) :
    n.RunsIbp E eps sl p p (n.eval p) (n.eval p) := by
  have hD : ∀ (κ : Type) (y : κ → α), (emptyDomain α).Point (ibpOnly y y).x (fun e => e.elim) := fun _ _ w b => by simp [emptyDomain, affEval]
  have hx : ∀ (κ : Type) (y : κ → α), ExactAt .ibp (ibpOnly y y) (fun e => e.elim) y := fun _ y =>
    ⟨fun _ _ => ⟨rfl, rfl⟩, fun ha => absurd ha (by simp [getAffine])⟩
  induction n with
  | input => exact ⟨rfl, rfl⟩
  | layer n l ih =>
    refine ⟨_, _, ih, fun k => ?_⟩
    have := (l.forward_exact (emptyDomain α) .ibp eps sl _ _ (hD _ (n.eval p)) _ (hx _ (n.eval p))).const rfl k
    rw [this.1, this.2, Net.eval, sub_self, abs_zero]
    exact ⟨hE.lay _ _ (fun _ => le_max_of_le_left (abs_nonneg _)) _, hE.lay _ _ (fun _ => le_max_of_le_left (abs_nonneg _)) _⟩
  | merge op n0 n1 ih0 ih1 =>
    refine ⟨_, _, _, _, ih0, ih1, fun k => ?_⟩
    have := (op.forward_exact (emptyDomain α) .ibp eps _ _ _ (hD _ (n0.eval p)) (hD _ (n1.eval p)) _ _ (hx _ (n0.eval p)) (hx _ (n1.eval p))).const rfl k
    rw [this.1, this.2, Net.eval, sub_self, abs_zero]
    exact ⟨hE.merge _ _ _ (le_max_of_le_left (abs_nonneg _)) (le_max_of_le_left (abs_nonneg _)),
      hE.merge _ _ _ (le_max_of_le_left (abs_nonneg _)) (le_max_of_le_left (abs_nonneg _))⟩

/-- C151: the outputs that Keras computes in rounded arithmetic are close to the exact ones. -/
theorem C151_call (hδ : 0 ≤ δ) (h : RelError rd δ) (bk : α → α → α → α → α → α) (hb0 : ∀ g b m s x, 0 ≤ bk g b m s x)
    (hbk : ∀ g b m s x y, 0 ≤ x → x ≤ y → bk g b m s x ≤ bk g b m s y) (σ : α) (hσ : 0 < σ) (n : Net α ι κ) (hn : n.WF) (hsd : n.SdAbove σ)
    (A p : ι → α) (hA : ∀ i, |p i| ≤ A i) (v : κ → α) (hv : n.RoundedCall rd bk p v) (k : κ) :
    |v k - n.eval p k| ≤ n.slackWith (roundError δ bk) σ A (fun _ => 0) k := by
  have a := C123_slack _ (roundError_mono hδ bk hbk) 1 one_pos .vSlope σ hσ n hn hsd p p p A (fun _ => 0) hA hA hA (fun _ => le_rfl) (fun _ => by simp) v
    _ _ (n.rounded_runs hδ h bk p v hv) (n.runsIbp_point _ (roundError_nonneg hδ bk hb0) 1 .vSlope p) k
  rw [abs_le]
  constructor <;> linarith [a.1, a.2]

/-- C151: a range certificate. If the computed lower end for `c` exceeds the computed upper end for `j` by more than the slacks and the errors of the
outputs, all known in advance, then Keras, computing in the same arithmetic, orders the two outputs so on the whole box. -/
theorem C151_range_certificate [DecidableEq ι] (hδ : 0 ≤ δ) (hδ1 : δ < 1) (h : RelError rd δ) (eps : α) (he : 0 < eps) (sl : Slope) (bn : α)
    (hbn : 0 ≤ bn) (bk : α → α → α → α → α → α) (hb0 : ∀ g b m s x, 0 ≤ bk g b m s x) (hbk : ∀ g b m s x y, 0 ≤ x → x ≤ y → bk g b m s x ≤ bk g b m s y)
    (σ : α) (hσ : 0 < σ) (b : BoxOf ι α) (n : Net α ι κ) (hn : n.WF) (hsd : n.SdAbove σ) (g : Full (BoxOf ι α) ι κ α)
    (hg : n.RoundedAffine rd eps sl bn (inputTensorsBox .affine b.1 b.2) g) (c j : κ) (U L U' L' : α) (hr : RangeRounded rd b g j U L)
    (hr' : RangeRounded rd b g c U' L')
    (hc : U + (n.rangeSlack δ eps bn (boxPeak b) j + n.slackWith (roundError δ bk) σ (boxPeak b) (fun _ => 0) j) <
      L' - (n.rangeSlack δ eps bn (boxPeak b) c + n.slackWith (roundError δ bk) σ (boxPeak b) (fun _ => 0) c))
    (p : ι → α) (hp : p ∈ Box b.1 b.2) (v : κ → α) (hv : n.RoundedCall rd bk p v) : v j < v c := by
  have a1 := (C151_range hδ hδ1 h eps he sl bn hbn b n hn g hg j U L hr p hp).2
  have a2 := (C151_range hδ hδ1 h eps he sl bn hbn b n hn g hg c U' L' hr' p hp).1
  have b1 := abs_le.1 (C151_call hδ h bk hb0 hbk σ hσ n hn hsd (boxPeak b) p (peak_point b hp) v hv j)
  have b2 := abs_le.1 (C151_call hδ h bk hb0 hbk σ hσ n hn hsd (boxPeak b) p (peak_point b hp) v hv c)
  linarith [b1.2, b2.1]

/-- C151: a score certificate of `get_adv_box`. -/
theorem C151_score_certificate [DecidableEq ι] (hδ : 0 ≤ δ) (hδ1 : δ < 1) (h : RelError rd δ) (eps : α) (he : 0 < eps) (sl : Slope) (bn : α)
    (hbn : 0 ≤ bn) (bk : α → α → α → α → α → α) (hb0 : ∀ g b m s x, 0 ≤ bk g b m s x) (hbk : ∀ g b m s x y, 0 ≤ x → x ≤ y → bk g b m s x ≤ bk g b m s y)
    (σ : α) (hσ : 0 < σ) (b : BoxOf ι α) (n : Net α ι κ) (hn : n.WF) (hsd : n.SdAbove σ) (g : Full (BoxOf ι α) ι κ α)
    (hg : n.RoundedAffine rd eps sl bn (inputTensorsBox .affine b.1 b.2) g) (c j : κ) (score : α) (hs : ScoreRounded rd b g j c score)
    (hc : score < -(n.scoreSlack δ eps bn (boxPeak b) j c + n.slackWith (roundError δ bk) σ (boxPeak b) (fun _ => 0) j +
      n.slackWith (roundError δ bk) σ (boxPeak b) (fun _ => 0) c))
    (p : ι → α) (hp : p ∈ Box b.1 b.2) (v : κ → α) (hv : n.RoundedCall rd bk p v) : v j < v c := by
  have a := C151_score hδ hδ1 h eps he sl bn hbn b n hn g hg j c score hs p hp
  have b1 := abs_le.1 (C151_call hδ h bk hb0 hbk σ hσ n hn hsd (boxPeak b) p (peak_point b hp) v hv j)
  have b2 := abs_le.1 (C151_call hδ h bk hb0 hbk σ hσ n hn hsd (boxPeak b) p (peak_point b hp) v hv c)
  linarith [b1.2, b2.1]

/-! ### Such computations exist, and without roundings the slack is that of C104 -/

theorem exists_upper (rd : α → α) (x : BoxOf ι α) (w : ι → α) (c : α) : (∃ v, UpperRounded rd x w c v) ∧ ∃ v, LowerRounded rd x w c v :=
  ⟨(exists_isSum rd _).elim fun d hd => ⟨_, d, hd, rfl⟩, (exists_isSum rd _).elim fun d hd => ⟨_, d, hd, rfl⟩⟩

theorem exists_relu (rd : α → α) (eps : α) (sl : Slope) (f : Full (BoxOf ι α) ι κ α) : ∃ g, ReluRounded rd eps sl f g := by
  choose u hu using fun k => (exists_upper rd f.x (fun i => f.wu i k) (f.bu k)).1
  choose l hl using fun k => (exists_upper rd f.x (fun i => f.wl i k) (f.bl k)).2
  let H := fun k => roundedHullRelu rd eps sl (u k) (l k)
  exact ⟨{ f with wu := fun i k => rd ((H k).wu * f.wu i k), wl := fun i k => rd ((H k).wl * f.wl i k),
                  bu := fun k => rd (rd ((H k).wu * f.bu k) + (H k).bu), bl := fun k => rd (rd ((H k).wl * f.bl k) + (H k).bl) },
    u, l, hu, hl, rfl, fun _ => ⟨fun _ => ⟨rfl, rfl⟩, rfl, rfl⟩⟩

theorem exists_sum2 {τ : Type} [Fintype τ] (rd : α → α) (x y : τ → α) (F : α → α → α) : ∃ v a b, IsSum rd x a ∧ IsSum rd y b ∧ v = F a b :=
  (exists_isSum rd x).elim fun a ha => (exists_isSum rd y).elim fun b hb => ⟨_, a, b, ha, hb, rfl⟩

theorem exists_dense [Fintype κ] (rd : α → α) (kernel : κ → κ' → α) (bias : κ' → α) (f : Full (BoxOf ι α) ι κ α) : ∃ g, DenseRounded rd kernel bias f g := by
  choose wu h1 using fun i o => exists_sum2 rd (fun t => f.wu i t * max 0 (kernel t o)) (fun t => f.wl i t * min 0 (kernel t o)) fun a b => rd (a + b)
  choose wl h2 using fun i o => exists_sum2 rd (fun t => f.wl i t * max 0 (kernel t o)) (fun t => f.wu i t * min 0 (kernel t o)) fun a b => rd (a + b)
  choose bu h3 using fun o => exists_sum2 rd (fun t => f.bu t * max 0 (kernel t o)) (fun t => f.bl t * min 0 (kernel t o)) fun a b => rd (rd (a + b) + bias o)
  choose bl h4 using fun o => exists_sum2 rd (fun t => f.bl t * max 0 (kernel t o)) (fun t => f.bu t * min 0 (kernel t o)) fun a b => rd (rd (a + b) + bias o)
  exact ⟨⟨f.x, fun _ => 0, wu, bu, fun _ => 0, wl, bl, fun _ => 0, fun _ => 0⟩, rfl, h1, h2, h3, h4⟩

theorem exists_linear {T Q : Type} [Fintype T] (rd : α → α) (L : LinIndex κ κ' T Q) (kernel : Q → α) (bias : κ' → α) (f : Full (BoxOf ι α) ι κ α) :
    ∃ g, LinearRounded rd L kernel bias f g := by
  choose wu h1 using fun i o => exists_sum2 rd (fun t => (L.src o t).elim 0 (f.wu i) * max 0 (kernel (L.kidx o t)))
    (fun t => (L.src o t).elim 0 (f.wl i) * min 0 (kernel (L.kidx o t))) fun a b => rd (a + b)
  choose wl h2 using fun i o => exists_sum2 rd (fun t => (L.src o t).elim 0 (f.wl i) * max 0 (kernel (L.kidx o t)))
    (fun t => (L.src o t).elim 0 (f.wu i) * min 0 (kernel (L.kidx o t))) fun a b => rd (a + b)
  choose bu h3 using fun o => exists_sum2 rd (fun t => (L.src o t).elim 0 f.bu * max 0 (kernel (L.kidx o t)))
    (fun t => (L.src o t).elim 0 f.bl * min 0 (kernel (L.kidx o t))) fun a b => rd (rd (a + b) + bias o)
  choose bl h4 using fun o => exists_sum2 rd (fun t => (L.src o t).elim 0 f.bl * max 0 (kernel (L.kidx o t)))
    (fun t => (L.src o t).elim 0 f.bu * min 0 (kernel (L.kidx o t))) fun a b => rd (rd (a + b) + bias o)
  exact ⟨⟨f.x, fun _ => 0, wu, bu, fun _ => 0, wl, bl, fun _ => 0, fun _ => 0⟩, rfl, h1, h2, h3, h4⟩

theorem exists_add (rd : α → α) (f0 f1 : Full (BoxOf ι α) ι κ α) : ∃ g, AddRounded rd f0 f1 g :=
  ⟨⟨f0.x, fun _ => 0, _, _, fun _ => 0, _, _, fun _ => 0, fun _ => 0⟩, rfl, fun _ _ => rfl, fun _ _ => rfl, fun _ => rfl, fun _ => rfl⟩

theorem exists_max (rd : α → α) (eps : α) (f0 f1 : Full (BoxOf ι α) ι κ α) : ∃ g, MaxRounded rd eps f0 f1 g := by
  obtain ⟨d, hd⟩ := exists_add rd f1 (minusT boxDomain .affine f0)
  obtain ⟨r, hr⟩ := exists_relu rd eps .vSlope d
  obtain ⟨g, hg⟩ := exists_add rd r f0
  exact ⟨g, d, r, hd, hr, hg⟩

/-- The layers of the network are ReLUs without the option `finetune`. -/
def Net.Plain : {κ : Type} → Net α ι κ → Prop
  | _, .input => True
  | _, @Net.layer _ _ _ _ _ _ _ n l => n.Plain ∧ match l with
    | .relu gf _ => ∀ k, gf k = 1
    | _ => True
  | _, .merge _ n0 n1 => n0.Plain ∧ n1.Plain

/-- C151: in every arithmetic the network has such bounds. -/
theorem C151_exists (rd : α → α) (eps : α) (sl : Slope) (bn : α) (hbn : 0 ≤ bn) (inp : Full (BoxOf ι α) ι ι α) (n : Net α ι κ) (hn : n.WF)
    (hp : n.Plain) (hm : n.NoMultiply) : ∃ g, n.RoundedAffine rd eps sl bn inp g := by
  induction n with
  | input => exact ⟨inp, rfl⟩
  | layer n l ih =>
    obtain ⟨f, hf⟩ := ih hn.1 hp.1 hm
    suffices h : ∃ g, l.RoundedAffine rd eps sl bn f g from h.elim fun g hg => ⟨g, f, hf, hg⟩
    cases l with
    | dense kernel bias => exact exists_dense rd kernel bias f
    | linear L kernel bias => exact exists_linear rd L kernel bias f
    | relu gf gb => exact (exists_relu rd eps sl f).imp fun _ h => ⟨hp.2, h⟩
    | batchNorm gamma beta mean sd =>
      have z : ∀ k, 0 ≤ |gamma k| / sd k := fun k => div_nonneg (abs_nonneg _) (hn.2 k).le
      have w : ∀ i k, 0 ≤ bn * (|gamma k| / sd k * max |f.wu i k| |f.wl i k|) := fun i k =>
        mul_nonneg hbn (mul_nonneg (z k) (le_max_of_le_left (abs_nonneg _)))
      have c : ∀ k, 0 ≤ bn * (|gamma k| / sd k * (max |f.bu k| |f.bl k| + |mean k|) + |beta k|) := fun k =>
        mul_nonneg hbn (add_nonneg (mul_nonneg (z k) (add_nonneg (le_max_of_le_left (abs_nonneg _)) (abs_nonneg _))) (abs_nonneg _))
      refine ⟨batchNormT boxDomain .affine gamma beta mean sd f, by simp [batchNormT], fun k => ⟨fun i => ⟨?_, ?_⟩, ?_, ?_⟩⟩ <;>
        rw [sub_self, abs_zero]
      exacts [w i k, w i k, c k, c k]
    | reshape e => exact ⟨_, rfl⟩
    | skip => exact ⟨_, rfl⟩
  | merge op n0 n1 ih0 ih1 =>
    obtain ⟨f0, h0⟩ := ih0 hn.1 hp.1 hm.2.1
    obtain ⟨f1, h1⟩ := ih1 hn.2 hp.2 hm.2.2
    suffices h : ∃ g, op.RoundedAffine rd eps f0 f1 g from h.elim fun g hg => ⟨g, f0, f1, h0, h1, hg⟩
    cases op with
    | add => exact exists_add rd f0 f1
    | subtract => exact exists_add rd f0 _
    | average => exact ⟨⟨f0.x, fun _ => 0, _, _, fun _ => 0, _, _, fun _ => 0, fun _ => 0⟩, rfl, fun _ _ => rfl, fun _ _ => rfl, fun _ => rfl, fun _ => rfl⟩
    | maximum => exact exists_max rd eps f0 f1
    | minimum => exact (exists_max rd eps _ _).elim fun g hg => ⟨_, g, hg, rfl⟩
    | multiply => exact absurd rfl hm.1

/-- C151: in exact arithmetic the slack is the one of C104. -/
theorem C151_zero (eps : α) (he : 0 < eps) (X : ι → α) (n : Net α ι κ) (hm : n.NoMultiply) (k : κ) : n.slackAff 0 eps 0 X k = eps * n.gain k := by
  have r0 : ∀ m, reluLoss (0 : α) m = 0 := fun m => by simp [reluLoss]
  induction n with
  | input => simp [Net.slackAff, Net.gain]
  | layer n l ih =>
    have e : (fun j => n.slackAff 0 eps 0 X j / eps) = n.gain := funext fun j => by rw [ih hm]; field_simp
    have z : l.lossAff 0 0 (Fintype.card ι) (n.sizeAff 0 0 X) k = 0 := by cases l <;> simp [Lay.lossAff, r0]
    simp only [Net.slackAff, Net.gain]
    rw [l.spreadTol_eq eps he, e, z, add_zero]
  | merge op n0 n1 ih0 ih1 =>
    simp only [Net.slackAff, Net.gain, ih0 hm.2.1, ih1 hm.2.2]
    cases op with
    | multiply => exact absurd rfl hm.1
    | _ => simp only [MergeOp.slackAff, MergeOp.gain, r0] <;> ring

end

/-- C151 on a residual block in float32, on the box `[-1,1]²`: the computed range encloses the outputs that Keras computes in float32 up to `1e-5`. -/
example (sl : Slope) (g : Full (BoxOf (Fin 2) ℚ) (Fin 2) (Fin 2) ℚ)
    (hg : residualNet.RoundedAffine (roundNearest 24) (1 / 10000000) sl 0 (inputTensorsBox .affine (fun _ => -1) fun _ => 1) g) (k : Fin 2) (U L : ℚ)
    (hr : RangeRounded (roundNearest 24) (fun _ => -1, fun _ => 1) g k U L) (p : Fin 2 → ℚ) (hp : p ∈ Box (fun _ => -1) fun _ => (1 : ℚ))
    (v : Fin 2 → ℚ) (hv : residualNet.RoundedCall (roundNearest 24) (fun _ _ _ _ _ => 0) p v) : L - 1 / 100000 ≤ v k ∧ v k ≤ U + 1 / 100000 := by
  have hwf : residualNet.WF := by simp [residualNet, Net.WF, Lay.WF]
  have a := C151_range (by norm_num) (by norm_num) (C118_float_error 24) (1 / 10000000) (by norm_num) sl 0 le_rfl (fun _ => -1, fun _ => 1) residualNet hwf
    g hg k U L hr p hp
  have c := abs_le.1 (C151_call (by norm_num) (C118_float_error 24) (fun _ _ _ _ _ => 0) (fun _ _ _ _ _ => le_rfl) (fun _ _ _ _ _ _ _ _ => le_rfl) 1 one_pos
    residualNet hwf (by simp [residualNet, Net.SdAbove, Lay.SdAbove]) _ p (peak_point (fun _ => -1, fun _ => 1) hp) v hv k)
  have e : residualNet.rangeSlack ((1 / 2) ^ 24) (1 / 10000000) 0 (boxPeak (ι := Fin 2) (fun _ => -1, fun _ => 1)) k +
      residualNet.slackWith (roundError ((1 / 2) ^ 24) fun _ _ _ _ _ => 0) 1 (boxPeak (ι := Fin 2) (fun _ => -1, fun _ => 1)) (fun _ => 0) k ≤ 1 / 100000 := by
    clear a c hr hv
    revert k
    decide +kernel
  constructor <;> linarith [a.1, a.2, c.1, c.2]

/-- C151 on the same network and box: a score of `get_adv_box` below `-1e-4` for the classes 0 and 1, computed in float32, certifies the order of the
outputs that Keras computes in float32. -/
example (sl : Slope) (g : Full (BoxOf (Fin 2) ℚ) (Fin 2) (Fin 2) ℚ)
    (hg : residualNet.RoundedAffine (roundNearest 24) (1 / 10000000) sl 0 (inputTensorsBox .affine (fun _ => -1) fun _ => 1) g) (score : ℚ)
    (hs : ScoreRounded (roundNearest 24) (fun _ => -1, fun _ => 1) g 0 1 score) (hc : score < -(1 / 10000)) (p : Fin 2 → ℚ)
    (hp : p ∈ Box (fun _ => -1) fun _ => (1 : ℚ)) (v : Fin 2 → ℚ) (hv : residualNet.RoundedCall (roundNearest 24) (fun _ _ _ _ _ => 0) p v) :
    v 0 < v 1 := by
  refine C151_score_certificate (δ := (1 / 2) ^ 24) (by norm_num) (by norm_num) (C118_float_error 24) (1 / 10000000) (by norm_num) sl 0 le_rfl
    (fun _ _ _ _ _ => 0) (fun _ _ _ _ _ => le_rfl) (fun _ _ _ _ _ _ _ _ => le_rfl) 1 one_pos (fun _ => -1, fun _ => 1) residualNet
    (by simp [residualNet, Net.WF, Lay.WF]) (by simp [residualNet, Net.SdAbove, Lay.SdAbove]) g hg 1 0 score hs (lt_of_lt_of_le hc ?_) p hp v hv
  decide +kernel

end Decomon
