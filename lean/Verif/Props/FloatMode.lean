import Verif.Lemmas.FloatMode
import Verif.Props.FloatBack

/-!
C153: the forward methods in rounded arithmetic in every mode, from the layers to the certificates.
-/

namespace Decomon

section
variable {ι κ κ' α : Type} [Fintype ι] [Field α] [LinearOrder α] [IsStrictOrderedRing α] {rd : α → α} {δ : α}

theorem input_near [DecidableEq ι] (m : Mode) (b : BoxOf ι α) {p : ι → α} (hp : p ∈ Box b.1 b.2) :
    ModeNear m (boxPeak b) (inputTensorsBox m b.1 b.2) p p (fun i => ⟨boxPeak b i, 0, boxPeak b i, 0⟩) := by
  have v := near_of_valid m _ p p (C27_input_box m b.1 b.2 p hp)
  refine ⟨fun hi k => ⟨v.const hi k, ?_⟩, fun ha => ⟨fun k => ?_, ⟨fun hi => absurd hi (by simp [getIbp]), fun _ => v.aff ha⟩⟩⟩
  · simp only [inputTensorsBox, hi, if_true]
    exact ⟨(peak_le b k).2, (peak_le b k).1⟩
  · cases m <;> first | exact absurd ha Bool.false_ne_true | exact input_size b (boxPeak b) k

/-- C153: the tensors that a forward method computes in rounded arithmetic have sizes and errors known from the weights, the precision and the box before
anything is computed. -/
theorem C153_rounded [DecidableEq ι] (hδ : 0 ≤ δ) (hδ1 : δ < 1) (h : RelError rd δ) (m : Mode) (eps : α) (he : 0 < eps) (sl : Slope) (bn : α) (hbn : 0 ≤ bn)
    (b : BoxOf ι α) (n : Net α ι κ) (hn : n.WF) (g : Full (BoxOf ι α) ι κ α) (hg : n.RoundedMode rd m eps sl bn (inputTensorsBox m b.1 b.2) g)
    (p : ι → α) (hp : p ∈ Box b.1 b.2) : ModeNear m (boxPeak b) g p (n.eval p) (n.modeErr m δ eps bn (boxPeak b)) :=
  (Net.RoundedMode.near hδ hδ1 h he hbn (peak_le b) hp (peak_point b hp) (input_near m b hp) hn hg).2

omit [IsStrictOrderedRing α] in
theorem aff_range_size {X : ι → α} (hX0 : ∀ i, 0 ≤ X i) {g : Full (BoxOf ι α) ι κ α} {k : κ} {M : α} [IsStrictOrderedRing α] (hM : g.sizeAff X k ≤ M) :
    (∑ i, |g.wu i k| * X i) + |g.bu k| ≤ M ∧ (∑ i, |g.wl i k| * X i) + |g.bl k| ≤ M :=
  ⟨(add_le_add (Finset.sum_le_sum fun i _ => mul_le_mul_of_nonneg_right (le_max_left _ _) (hX0 i)) (le_max_left _ _)).trans hM,
    (add_le_add (Finset.sum_le_sum fun i _ => mul_le_mul_of_nonneg_right (le_max_right _ _) (hX0 i)) (le_max_right _ _)).trans hM⟩

/-- The range read from affine bounds of known size and error. -/
theorem range_read (hδ : 0 ≤ δ) (h : RelError rd δ) {b : BoxOf ι α} {g : Full (BoxOf ι α) ι κ α} {k : κ} {U L : α} (hr : RangeRounded rd b g k U L) {p : ι → α}
    (hp : p ∈ Box b.1 b.2) {y s M : κ → α} (hM : ∀ k, g.sizeAff (boxPeak b) k ≤ M k) (v : Near .affine g p y s) :
    L - (s k + ((1 + δ) ^ (Fintype.card ι + 2) - 1) * M k) ≤ y k ∧ y k ≤ U + (s k + ((1 + δ) ^ (Fintype.card ι + 2) - 1) * M k) := by
  obtain ⟨⟨x, y', hx, hy, rfl⟩, x', y'', hx', hy', rfl⟩ := hr
  have hX0 : ∀ i, 0 ≤ boxPeak b i := fun i => (abs_nonneg _).trans (peak_le b i).1
  have e1 := split_error hδ h b.2 b.1 (fun i => g.wu i k) (boxPeak b) (fun i => (peak_le b i).2) (fun i => (peak_le b i).1) (g.bu k) x y' hx hy
  have e2 := split_error hδ h b.1 b.2 (fun i => g.wl i k) (boxPeak b) (fun i => (peak_le b i).1) (fun i => (peak_le b i).2) (g.bl k) x' y'' hx' hy'
  rw [← upper_eq] at e1
  rw [← lower_eq] at e2
  obtain ⟨s1, s2⟩ := aff_range_size hX0 (hM k)
  have f1 := abs_le.1 (e1.trans (mul_le_mul_of_nonneg_left s1 (gamma_nonneg hδ _)))
  have f2 := abs_le.1 (e2.trans (mul_le_mul_of_nonneg_left s2 (gamma_nonneg hδ _)))
  have q1 := getUpperBox_sound hp (fun i => g.wu i k) (g.bu k)
  have q2 := getLowerBox_sound hp (fun i => g.wl i k) (g.bl k)
  have a := v.aff rfl k
  constructor <;> linarith [a.1, a.2]

/-- What `get_range_box` computes from bounds of known size and error, in every mode. -/
theorem ModeNear.range (hδ : 0 ≤ δ) (h : RelError rd δ) {m : Mode} {b : BoxOf ι α} {g : Full (BoxOf ι α) ι κ α} {p : ι → α} (hp : p ∈ Box b.1 b.2) {y : κ → α}
    {e : κ → ModeErr α} (v : ModeNear m (boxPeak b) g p y e) {k : κ} {U L : α} (hr : RangeMode rd m b g k U L) :
    L - (e k).readSlack m δ (Fintype.card ι) ≤ y k ∧ y k ≤ U + (e k).readSlack m δ (Fintype.card ι) := by
  cases m with
  | ibp =>
    obtain ⟨rfl, rfl⟩ := hr
    exact (v.const rfl k).1
  | affine =>
    obtain ⟨a1, a2⟩ := v.aff rfl
    exact range_read hδ h hr hp a1 a2
  | hybrid =>
    obtain ⟨Uf, Lf, hr, rfl, rfl⟩ := hr
    obtain ⟨a1, a2⟩ := v.aff rfl
    obtain ⟨r1, r2⟩ := range_read hδ h hr hp a1 a2
    obtain ⟨c1, c2⟩ := (v.const rfl k).1
    generalize e k = e at *
    have x1 := le_max_left e.cSlack (e.aSlack + ((1 + δ) ^ (Fintype.card ι + 2) - 1) * e.aSize)
    have x2 := le_max_right e.cSlack (e.aSlack + ((1 + δ) ^ (Fintype.card ι + 2) - 1) * e.aSize)
    simp only [ModeErr.readSlack]
    constructor
    · rw [sub_le_iff_le_add, max_le_iff]
      constructor <;> linarith
    · rw [← sub_le_iff_le_add, le_min_iff]
      constructor <;> linarith

/-- C153: the range that `get_range_box` returns encloses the outputs up to the error of the bounds, in every mode. -/
theorem C153_range [DecidableEq ι] (hδ : 0 ≤ δ) (hδ1 : δ < 1) (h : RelError rd δ) (m : Mode) (eps : α) (he : 0 < eps) (sl : Slope) (bn : α) (hbn : 0 ≤ bn)
    (b : BoxOf ι α) (n : Net α ι κ) (hn : n.WF) (g : Full (BoxOf ι α) ι κ α) (hg : n.RoundedMode rd m eps sl bn (inputTensorsBox m b.1 b.2) g)
    (k : κ) (U L : α) (hr : RangeMode rd m b g k U L) (p : ι → α) (hp : p ∈ Box b.1 b.2) :
    L - (n.modeErr m δ eps bn (boxPeak b) k).readSlack m δ (Fintype.card ι) ≤ n.eval p k ∧
      n.eval p k ≤ U + (n.modeErr m δ eps bn (boxPeak b) k).readSlack m δ (Fintype.card ι) :=
  (C153_rounded hδ hδ1 h m eps he sl bn hbn b n hn g hg p hp).range hδ h hp hr

/-- The score of two entries with affine bounds of known size and error. -/
theorem score_read (hδ : 0 ≤ δ) (h : RelError rd δ) {b : BoxOf ι α} {g : Full (BoxOf ι α) ι κ α} {j c : κ} {score : α} (hs : ScoreRounded rd b g j c score)
    {p : ι → α} (hp : p ∈ Box b.1 b.2) {z s M : κ → α} (hM : ∀ k, g.sizeAff (boxPeak b) k ≤ M k) (v : Near .affine g p z s) :
    z j - z c ≤ score + (s j + s c + ((1 + δ) ^ (Fintype.card ι + 3) - 1) * (M j + M c)) := by
  obtain ⟨x, y, hx, hy, rfl⟩ := hs
  have hX0 : ∀ i, 0 ≤ boxPeak b i := fun i => (abs_nonneg _).trans (peak_le b i).1
  have ab : ∀ a, |rd a| ≤ (1 + δ) * |a| := fun a => by
    have := abs_add_le (rd a - a) a
    rw [sub_add_cancel] at this
    linarith [h a]
  have e1 := split_error hδ h b.2 b.1 (fun i => rd (g.wu i j - g.wl i c)) (boxPeak b) (fun i => (peak_le b i).2) (fun i => (peak_le b i).1)
    (rd (g.bu j - g.bl c)) x y hx hy
  rw [← upper_eq] at e1
  have q1 := getUpperBox_sound hp (fun i => rd (g.wu i j - g.wl i c)) (rd (g.bu j - g.bl c))
  have e2 := aff_close (fun i => g.wu i j - g.wl i c) (fun i => rd (g.wu i j - g.wl i c)) p (boxPeak b) (fun i => δ * |g.wu i j - g.wl i c|)
    (g.bu j - g.bl c) (rd (g.bu j - g.bl c)) _ (peak_point b hp) (fun i => h _) (h _)
  have S : (∑ i, |g.wu i j - g.wl i c| * boxPeak b i) + |g.bu j - g.bl c| ≤ M j + M c := by
    have t1 : ∑ i, |g.wu i j - g.wl i c| * boxPeak b i ≤ ∑ i, |g.wu i j| * boxPeak b i + ∑ i, |g.wl i c| * boxPeak b i := by
      rw [← Finset.sum_add_distrib]
      refine Finset.sum_le_sum fun i _ => ?_
      rw [← add_mul]
      exact mul_le_mul_of_nonneg_right (abs_sub _ _) (hX0 i)
    have t2 := abs_sub (g.bu j) (g.bl c)
    have m1 := (aff_range_size hX0 (hM j)).1
    have m2 := (aff_range_size hX0 (hM c)).2
    linarith
  have S' : (∑ i, |rd (g.wu i j - g.wl i c)| * boxPeak b i) + |rd (g.bu j - g.bl c)| ≤ (1 + δ) * (M j + M c) := by
    refine le_trans ?_ (mul_le_mul_of_nonneg_left S (by linarith))
    rw [mul_add, Finset.mul_sum]
    refine add_le_add (Finset.sum_le_sum fun i _ => ?_) (ab _)
    rw [← mul_assoc]
    exact mul_le_mul_of_nonneg_right (ab _) (hX0 i)
  have f1 := abs_le.1 (e1.trans (mul_le_mul_of_nonneg_left S' (gamma_nonneg hδ _)))
  have e3 : (∑ i, δ * |g.wu i j - g.wl i c| * boxPeak b i) + δ * |g.bu j - g.bl c| ≤ δ * (M j + M c) := by
    refine le_trans (le_of_eq ?_) (mul_le_mul_of_nonneg_left S hδ)
    rw [mul_add, Finset.mul_sum]
    simp only [mul_assoc]
  have f2 := abs_le.1 (e2.trans e3)
  have e4 : affEval (fun i => g.wu i j - g.wl i c) (g.bu j - g.bl c) p =
      affEval (fun i => g.wu i j) (g.bu j) p - affEval (fun i => g.wl i c) (g.bl c) p := by
    simp only [affEval, sub_mul, Finset.sum_sub_distrib]; ring
  rw [e4] at f2
  have a1 := (v.aff rfl j).2
  have a2 := (v.aff rfl c).1
  have f1' := f1.1
  have f2' := f2.1
  simp only [pow_succ (1 + δ) (Fintype.card ι + 2)]
  nlinarith

theorem const_score (h : RelError rd δ) (hδ : 0 ≤ δ) {g : Full (BoxOf ι α) ι κ α} {z : κ → α} {e : κ → ModeErr α}
    (v : ∀ k, (g.lc k - (e k).cSlack ≤ z k ∧ z k ≤ g.uc k + (e k).cSlack) ∧ |g.uc k| ≤ (e k).cSize ∧ |g.lc k| ≤ (e k).cSize) (j c : κ) :
    z j - z c ≤ rd (g.uc j - g.lc c) + ((e j).cSlack + (e c).cSlack + δ * ((e j).cSize + (e c).cSize)) := by
  have r := abs_le.1 (h (g.uc j - g.lc c))
  have s := mul_le_mul_of_nonneg_left ((abs_sub (g.uc j) (g.lc c)).trans (add_le_add (v j).2.1 (v c).2.2)) hδ
  linarith [r.1, (v j).1.2, (v c).1.1]

/-- What `get_adv_box` computes from bounds of known size and error, in every mode. -/
theorem ModeNear.score (hδ : 0 ≤ δ) (h : RelError rd δ) {m : Mode} {b : BoxOf ι α} {g : Full (BoxOf ι α) ι κ α} {p : ι → α} (hp : p ∈ Box b.1 b.2) {y : κ → α}
    {e : κ → ModeErr α} (v : ModeNear m (boxPeak b) g p y e) {T : Set κ} {c : κ} {R : α} (hR : AdvMode rd m b g T c R) {j : κ} (hj : j ∈ T) :
    y j - y c ≤ R + (e j).score m δ (Fintype.card ι) (e c) := by
  cases m with
  | ibp => exact (const_score h hδ (v.const rfl) j c).trans (add_le_add (hR j hj) le_rfl)
  | affine =>
    obtain ⟨a1, a2⟩ := v.aff rfl
    obtain ⟨s, hs, hs'⟩ := hR j hj
    exact (score_read hδ h hs hp a1 a2).trans (add_le_add hs' le_rfl)
  | hybrid =>
    obtain ⟨R1, R2, h1, h2, rfl⟩ := hR
    obtain ⟨a1, a2⟩ := v.aff rfl
    obtain ⟨s, hs, hs'⟩ := h2 j hj
    have q1 := (const_score h hδ (v.const rfl) j c).trans (add_le_add (h1 j hj) le_rfl)
    have q2 := (score_read hδ h hs hp a1 a2).trans (add_le_add hs' le_rfl)
    simp only [ModeErr.score]
    rw [← sub_le_iff_le_add, le_min_iff]
    constructor
    · exact sub_le_iff_le_add.2 (q1.trans (add_le_add le_rfl (le_max_left _ _)))
    · exact sub_le_iff_le_add.2 (q2.trans (add_le_add le_rfl (le_max_right _ _)))

/-- C153: the score that `get_adv_box` returns bounds the difference between every target output and the source output, in every mode. -/
theorem C153_score [DecidableEq ι] (hδ : 0 ≤ δ) (hδ1 : δ < 1) (h : RelError rd δ) (m : Mode) (eps : α) (he : 0 < eps) (sl : Slope) (bn : α) (hbn : 0 ≤ bn)
    (b : BoxOf ι α) (n : Net α ι κ) (hn : n.WF) (g : Full (BoxOf ι α) ι κ α) (hg : n.RoundedMode rd m eps sl bn (inputTensorsBox m b.1 b.2) g)
    (T : Set κ) (c : κ) (R : α) (hR : AdvMode rd m b g T c R) (p : ι → α) (hp : p ∈ Box b.1 b.2) (j : κ) (hj : j ∈ T) :
    n.eval p j - n.eval p c ≤ R + n.scoreErr m δ eps bn (boxPeak b) j c :=
  (C153_rounded hδ hδ1 h m eps he sl bn hbn b n hn g hg p hp).score hδ h hp hR hj

/-- C153: a range certificate for the outputs that Keras computes in the same arithmetic. -/
theorem C153_range_certificate [DecidableEq ι] (hδ : 0 ≤ δ) (hδ1 : δ < 1) (h : RelError rd δ) (m : Mode) (eps : α) (he : 0 < eps) (sl : Slope) (bn : α)
    (hbn : 0 ≤ bn) (bk : α → α → α → α → α → α) (hb0 : ∀ g b m s x, 0 ≤ bk g b m s x) (hbk : ∀ g b m s x y, 0 ≤ x → x ≤ y → bk g b m s x ≤ bk g b m s y)
    (σ : α) (hσ : 0 < σ) (b : BoxOf ι α) (n : Net α ι κ) (hn : n.WF) (hsd : n.SdAbove σ) (g : Full (BoxOf ι α) ι κ α)
    (hg : n.RoundedMode rd m eps sl bn (inputTensorsBox m b.1 b.2) g) (c j : κ) (U L U' L' : α) (hr : RangeMode rd m b g j U L)
    (hr' : RangeMode rd m b g c U' L')
    (hc : U + ((n.modeErr m δ eps bn (boxPeak b) j).readSlack m δ (Fintype.card ι) + n.slackWith (roundError δ bk) σ (boxPeak b) (fun _ => 0) j) <
      L' - ((n.modeErr m δ eps bn (boxPeak b) c).readSlack m δ (Fintype.card ι) + n.slackWith (roundError δ bk) σ (boxPeak b) (fun _ => 0) c))
    (p : ι → α) (hp : p ∈ Box b.1 b.2) (v : κ → α) (hv : n.RoundedCall rd bk p v) : v j < v c := by
  have a1 := (C153_range hδ hδ1 h m eps he sl bn hbn b n hn g hg j U L hr p hp).2
  have a2 := (C153_range hδ hδ1 h m eps he sl bn hbn b n hn g hg c U' L' hr' p hp).1
  have b1 := abs_le.1 (C151_call hδ h bk hb0 hbk σ hσ n hn hsd (boxPeak b) p (peak_point b hp) v hv j)
  have b2 := abs_le.1 (C151_call hδ h bk hb0 hbk σ hσ n hn hsd (boxPeak b) p (peak_point b hp) v hv c)
  linarith [b1.2, b2.1]

/-- C153: a certificate of `get_adv_box`: if the score is below the errors known in advance, Keras computes a larger output for the source class than for
every target class, on the whole box. -/
theorem C153_adv_certificate [DecidableEq ι] (hδ : 0 ≤ δ) (hδ1 : δ < 1) (h : RelError rd δ) (m : Mode) (eps : α) (he : 0 < eps) (sl : Slope) (bn : α)
    (hbn : 0 ≤ bn) (bk : α → α → α → α → α → α) (hb0 : ∀ g b m s x, 0 ≤ bk g b m s x) (hbk : ∀ g b m s x y, 0 ≤ x → x ≤ y → bk g b m s x ≤ bk g b m s y)
    (σ : α) (hσ : 0 < σ) (b : BoxOf ι α) (n : Net α ι κ) (hn : n.WF) (hsd : n.SdAbove σ) (g : Full (BoxOf ι α) ι κ α)
    (hg : n.RoundedMode rd m eps sl bn (inputTensorsBox m b.1 b.2) g) (T : Set κ) (c : κ) (R : α) (hR : AdvMode rd m b g T c R)
    (hc : ∀ j ∈ T, R < -(n.scoreErr m δ eps bn (boxPeak b) j c + n.slackWith (roundError δ bk) σ (boxPeak b) (fun _ => 0) j +
      n.slackWith (roundError δ bk) σ (boxPeak b) (fun _ => 0) c))
    (p : ι → α) (hp : p ∈ Box b.1 b.2) (v : κ → α) (hv : n.RoundedCall rd bk p v) (j : κ) (hj : j ∈ T) : v j < v c := by
  have a := C153_score hδ hδ1 h m eps he sl bn hbn b n hn g hg T c R hR p hp j hj
  have b1 := abs_le.1 (C151_call hδ h bk hb0 hbk σ hσ n hn hsd (boxPeak b) p (peak_point b hp) v hv j)
  have b2 := abs_le.1 (C151_call hδ h bk hb0 hbk σ hσ n hn hsd (boxPeak b) p (peak_point b hp) v hv c)
  linarith [b1.2, b2.1, hc j hj]

/-- C153: in mode affine the errors are those of C151. -/
theorem C153_affine (eps bn : α) (X : ι → α) (n : Net α ι κ) (k : κ) :
    (n.modeErr .affine δ eps bn X k).aSize = n.sizeAff δ bn X k ∧ (n.modeErr .affine δ eps bn X k).aSlack = n.slackAff δ eps bn X k := by
  induction n with
  | input => exact ⟨rfl, rfl⟩
  | layer n l ih =>
    have e1 : (fun j => (n.modeErr .affine δ eps bn X j).aSize) = n.sizeAff δ bn X := funext fun j => (ih j).1
    have e2 : (fun j => (n.modeErr .affine δ eps bn X j).aSlack) = n.slackAff δ eps bn X := funext fun j => (ih j).2
    cases l with
    | relu gf gb =>
      simp only [Net.modeErr, Lay.modeErr, ModeErr.relu, ModeErr.readSize, ModeErr.readSlack, Net.sizeAff, Net.slackAff, Lay.growAff, Lay.spreadTol,
        Lay.lossAff, reluGrow, reluLoss, (ih k).1, (ih k).2]
      constructor <;> ring
    | skip =>
      simp only [Net.modeErr, Lay.modeErr, Net.sizeAff, Net.slackAff, Lay.growAff, Lay.spreadTol, Lay.lossAff, add_zero]
      exact ih k
    | _ => exact ⟨by simp only [Net.modeErr, Lay.modeErr, Net.sizeAff, e1], by simp only [Net.modeErr, Lay.modeErr, Net.slackAff, e1, e2]⟩
  | merge op n0 n1 ih0 ih1 =>
    cases op <;> simp only [Net.modeErr, MergeOp.modeErr, ModeErr.add, ModeErr.average, ModeErr.relu, ModeErr.readSize, ModeErr.readSlack, Net.sizeAff, Net.slackAff,
      MergeOp.growAff, MergeOp.slackAff, reluGrow, reluLoss, (ih0 k).1, (ih0 k).2, (ih1 k).1, (ih1 k).2] <;> constructor <;> first | trivial | ring

theorem readSlack_zero {m : Mode} (hm : m ≠ .ibp) (N : ℕ) (e : ModeErr α) (s : α) (h1 : e.aSlack = s) (h2 : m = .hybrid → e.cSlack ≤ s) :
    e.readSlack m 0 N = s := by
  cases m with
  | ibp => exact absurd rfl hm
  | affine => simp [ModeErr.readSlack, h1]
  | hybrid => simpa [ModeErr.readSlack, h1] using h2 rfl

/-- C153: in exact arithmetic the error is the one of C104; in mode ibp there is none. -/
theorem C153_zero (m : Mode) (eps : α) (he : 0 < eps) (X : ι → α) (n : Net α ι κ) (hn : n.WF) (hm : n.NoMultiply) (k : κ) :
    (n.modeErr m 0 eps 0 X k).readSlack m 0 (Fintype.card ι) = if m = .ibp then 0 else eps * n.gain k := by
  by_cases hi : m = .ibp
  · subst hi
    simp only [ModeErr.readSlack, if_true]
    induction n with
    | input => rfl
    | layer n l ih =>
      have e : (fun j => (n.modeErr .ibp 0 eps 0 X j).readSlack .ibp 0 (Fintype.card ι)) = fun _ => 0 := funext fun j => ih hn.1 hm j
      cases l with
      | relu gf gb => exact ih hn.1 hm k
      | skip => exact ih hn.1 hm k
      | linear L kernel bias =>
        simp only [Net.modeErr, Lay.modeErr, e, Lay.spreadTol, Lay.lossAff]
        simp only [add_zero, one_pow, sub_self, zero_mul]
        exact Finset.sum_eq_zero fun t _ => by cases L.src k t <;> simp
      | _ => simp [Net.modeErr, Lay.modeErr, fun j => congrFun e j, Lay.spreadTol, Lay.lossAff]
    | merge op n0 n1 ih0 ih1 =>
      cases op with
      | multiply => exact absurd rfl hm.1
      | _ => simp [Net.modeErr, MergeOp.modeErr, ModeErr.add, ModeErr.average, ModeErr.relu, ModeErr.readSlack, ih0 hn.1 hm.2.1, ih1 hn.2 hm.2.2]
  · rw [if_neg hi]
    suffices key : ∀ k, (n.modeErr m 0 eps 0 X k).aSlack = eps * n.gain k ∧ (n.modeErr m 0 eps 0 X k).readSlack m 0 (Fintype.card ι) = eps * n.gain k from
      (key k).2
    clear k
    induction n with
    | input => exact fun k => ⟨by simp [Net.modeErr, Net.gain], readSlack_zero hi _ _ _ (by simp [Net.modeErr, Net.gain]) fun _ => by simp [Net.modeErr, Net.gain]⟩
    | layer n l ih =>
      intro k
      have e1 : (fun j => (n.modeErr m 0 eps 0 X j).aSlack) = fun j => eps * n.gain j := funext fun j => (ih hn.1 hm j).1
      have e2 : (fun j => (n.modeErr m 0 eps 0 X j).readSlack m 0 (Fintype.card ι)) = fun j => eps * n.gain j := funext fun j => (ih hn.1 hm j).2
      have e3 : l.spreadTol eps (fun j => eps * n.gain j) k = eps * l.gain n.gain k := by
        rw [l.spreadTol_eq eps he]
        have : (fun j => eps * n.gain j / eps) = n.gain := funext fun j => by field_simp
        rw [this]
      have g0 := mul_nonneg he.le ((Net.layer n l).gain_nonneg hn k)
      cases l with
      | relu gf gb =>
        have q := n.gain_nonneg hn.1 k
        have q' := mul_nonneg he.le q
        have a : (((n.layer (.relu gf gb)).modeErr m 0 eps 0 X) k).aSlack = eps * (n.layer (.relu gf gb)).gain k := by
          simp only [Net.modeErr, Lay.modeErr, ModeErr.relu, (ih hn.1 hm k).1, (ih hn.1 hm k).2, Net.gain, Lay.gain]
          simp only [add_zero, one_pow, sub_zero, div_one, sub_self, zero_mul]
          ring
        refine ⟨a, readSlack_zero hi _ _ _ a fun _ => ?_⟩
        simp only [Net.modeErr, Lay.modeErr, ModeErr.relu, (ih hn.1 hm k).2, Net.gain, Lay.gain]
        linarith
      | skip => exact ih hn.1 hm k
      | _ =>
        simp only [Net.modeErr, Lay.modeErr, Net.gain]
        constructor
        · rw [e1, e3]
          simp [Lay.lossAff]
        · refine readSlack_zero hi _ _ _ ?_ fun _ => ?_
          · rw [e1, e3]
            simp [Lay.lossAff]
          · rw [e2, e3]
            simp [Lay.lossAff]
    | merge op n0 n1 ih0 ih1 =>
      intro k
      obtain ⟨a0, r0⟩ := ih0 hn.1 hm.2.1 k
      obtain ⟨a1, r1⟩ := ih1 hn.2 hm.2.2 k
      have g0 := mul_nonneg he.le (n0.gain_nonneg hn.1 k)
      have g1 := mul_nonneg he.le (n1.gain_nonneg hn.2 k)
      simp only [Net.modeErr, Net.gain]
      generalize n0.modeErr m 0 eps 0 X k = e0 at *
      generalize n1.modeErr m 0 eps 0 X k = e1 at *
      generalize n0.gain k = s0 at *
      generalize n1.gain k = s1 at *
      have add : ∀ (e e' : ModeErr α) (s s' : α), e.aSlack = s → e.readSlack m 0 (Fintype.card ι) = s → e'.aSlack = s' → e'.readSlack m 0 (Fintype.card ι) = s' →
          (e.add m 0 (Fintype.card ι) e').aSlack = s + s' ∧ (e.add m 0 (Fintype.card ι) e').readSlack m 0 (Fintype.card ι) = s + s' := by
        intro e e' s s' h1 h2 h3 h4
        have a : (e.add m 0 (Fintype.card ι) e').aSlack = s + s' := by simp [ModeErr.add, h1, h3]
        exact ⟨a, readSlack_zero hi _ _ _ a fun _ => by simp [ModeErr.add, h2, h4]⟩
      have max' : ∀ s : α, s = eps * (2 * (s0 + s1) + 1 / 4 + s0) →
          ((((e1.add m 0 (Fintype.card ι) e0).relu m 0 eps (Fintype.card ι)).add m 0 (Fintype.card ι) e0).aSlack = s ∧
            (((e1.add m 0 (Fintype.card ι) e0).relu m 0 eps (Fintype.card ι)).add m 0 (Fintype.card ι) e0).readSlack m 0 (Fintype.card ι) = s) := by
        rintro s rfl
        obtain ⟨d1, d2⟩ := add e1 e0 _ _ a1 r1 a0 r0
        have d3 : ((e1.add m 0 (Fintype.card ι) e0).relu m 0 eps (Fintype.card ι)).aSlack = 2 * (eps * s1 + eps * s0) + eps / 4 := by
          simp only [ModeErr.relu, d1, d2]
          simp only [add_zero, one_pow, sub_zero, div_one, sub_self, zero_mul]
          ring
        have d4 := readSlack_zero hi (Fintype.card ι) _ _ d3 fun _ => by simp only [ModeErr.relu, d2]; linarith
        have := add _ e0 _ _ d3 d4 a0 r0
        have e : 2 * (eps * s1 + eps * s0) + eps / 4 + eps * s0 = eps * (2 * (s0 + s1) + 1 / 4 + s0) := by ring
        rwa [e] at this
      cases op with
      | multiply => exact absurd rfl hm.1
      | add =>
        have := add e0 e1 _ _ a0 r0 a1 r1
        rwa [← mul_add] at this
      | subtract =>
        have := add e0 e1 _ _ a0 r0 a1 r1
        rwa [← mul_add] at this
      | average =>
        have a : (e0.average m 0 (Fintype.card ι) e1).aSlack = eps * ((s0 + s1) / 2) := by simp [ModeErr.average, a0, a1]; ring
        refine ⟨a, readSlack_zero hi _ _ _ a fun _ => le_of_eq ?_⟩
        have : (e0.average m 0 (Fintype.card ι) e1).cSlack = eps * ((s0 + s1) / 2) := by
          simp only [ModeErr.average, r0, r1, add_zero, one_pow, sub_self, zero_mul]; ring
        exact this
      | maximum => exact max' _ rfl
      | minimum => exact max' _ rfl

theorem exists_tight (rd : α → α) (m : Mode) (f : Full (BoxOf ι α) ι κ α) : ∃ u l, TightRounded rd m f u l := by
  choose u hu using fun k => (exists_upper rd f.x (fun i => f.wu i k) (f.bu k)).1
  choose l hl using fun k => (exists_upper rd f.x (fun i => f.wl i k) (f.bl k)).2
  cases m with
  | ibp => exact ⟨_, _, rfl, rfl⟩
  | affine => exact ⟨u, l, fun k => ⟨hu k, hl k⟩⟩
  | hybrid => exact ⟨_, _, u, l, fun k => ⟨hu k, hl k⟩, fun k => ⟨rfl, rfl⟩⟩

theorem exists_reluMode (rd : α → α) (m : Mode) (eps : α) (sl : Slope) (f : Full (BoxOf ι α) ι κ α) : ∃ g, ReluMode rd m eps sl f g := by
  obtain ⟨u, l, h⟩ := exists_tight rd m f
  exact ⟨⟨f.x, _, _, _, _, _, _, fun _ => 0, fun _ => 0⟩, u, l, h, rfl, fun _ k => ⟨rfl, rfl⟩, fun _ k => ⟨fun i => ⟨rfl, rfl⟩, rfl, rfl⟩⟩

theorem exists_addMode (rd : α → α) (m : Mode) (f0 f1 : Full (BoxOf ι α) ι κ α) : ∃ g, AddMode rd m f0 f1 g := by
  obtain ⟨u0, l0, h0⟩ := exists_tight rd m f0
  obtain ⟨u1, l1, h1⟩ := exists_tight rd m f1
  exact ⟨⟨f0.x, _, _, _, _, _, _, fun _ => 0, fun _ => 0⟩, rfl, fun _ => ⟨rfl, fun _ _ => rfl, fun _ _ => rfl, fun _ => rfl, fun _ => rfl⟩,
    fun _ => ⟨u0, l0, u1, l1, h0, h1, fun k => ⟨rfl, rfl⟩⟩⟩

theorem exists_maxMode (rd : α → α) (m : Mode) (eps : α) (f0 f1 : Full (BoxOf ι α) ι κ α) : ∃ g, MaxMode rd m eps f0 f1 g := by
  obtain ⟨d, hd⟩ := exists_addMode rd m f1 (minusT boxDomain m f0)
  obtain ⟨r, hr⟩ := exists_reluMode rd m eps .vSlope d
  obtain ⟨g, hg⟩ := exists_addMode rd m r f0
  exact ⟨g, d, r, hd, hr, hg⟩

/-- One layer on affine bounds. -/
theorem exists_linearPart [Fintype κ] (rd : α → α) (eps : α) (sl : Slope) (bn : α) (hbn : 0 ≤ bn) (l : Lay α κ κ') (hl : l.WF)
    (hr : match l with | .relu gf _ => ∀ k, gf k = 1 | _ => True) (f : Full (BoxOf ι α) ι κ α) : ∃ g, l.RoundedAffine rd eps sl bn f g := by
  cases l with
  | dense kernel bias => exact exists_dense rd kernel bias f
  | linear L kernel bias => exact exists_linear rd L kernel bias f
  | relu gf gb => exact (exists_relu rd eps sl f).imp fun _ h => ⟨hr, h⟩
  | batchNorm gamma beta mean sd =>
    have z : ∀ k, 0 ≤ |gamma k| / sd k := fun k => div_nonneg (abs_nonneg _) (hl k).le
    have w : ∀ i k, 0 ≤ bn * (|gamma k| / sd k * max |f.wu i k| |f.wl i k|) := fun i k =>
      mul_nonneg hbn (mul_nonneg (z k) (le_max_of_le_left (abs_nonneg _)))
    have c : ∀ k, 0 ≤ bn * (|gamma k| / sd k * (max |f.bu k| |f.bl k| + |mean k|) + |beta k|) := fun k =>
      mul_nonneg hbn (add_nonneg (mul_nonneg (z k) (add_nonneg (le_max_of_le_left (abs_nonneg _)) (abs_nonneg _))) (abs_nonneg _))
    refine ⟨batchNormT boxDomain .affine gamma beta mean sd f, by simp [batchNormT], fun k => ⟨fun i => ⟨?_, ?_⟩, ?_, ?_⟩⟩ <;>
      rw [sub_self, abs_zero]
    exacts [w i k, w i k, c k, c k]
  | reshape e => exact ⟨_, rfl⟩
  | skip => exact ⟨_, rfl⟩

/-- C153: in every arithmetic and every mode the network has such bounds. -/
theorem C153_exists (rd : α → α) (m : Mode) (eps : α) (sl : Slope) (bn : α) (hbn : 0 ≤ bn) (inp : Full (BoxOf ι α) ι ι α) (n : Net α ι κ) (hn : n.WF)
    (hp : n.Plain) (hm : n.NoMultiply) : ∃ g, n.RoundedMode rd m eps sl bn inp g := by
  induction n with
  | input => exact ⟨inp, rfl⟩
  | layer n l ih =>
    obtain ⟨f, hf⟩ := ih hn.1 hp.1 hm
    suffices h : ∃ g, l.RoundedMode rd m eps sl bn f g from h.elim fun g hg => ⟨g, f, hf, hg⟩
    obtain ⟨u, lo, ht⟩ := exists_tight rd m f
    have build : (∃ g1, l.RoundedAffine rd eps sl bn f g1) → (∃ g2, l.RoundedAffine rd eps sl bn (constAff u lo) g2) →
        ∃ g : Full (BoxOf ι α) ι _ α, g.x = f.x ∧ (getAffine m = true → ∃ g', l.RoundedAffine rd eps sl bn f g' ∧ g.SameAff g') ∧
          (getIbp m = true → ∃ u lo g', TightRounded rd m f u lo ∧ l.RoundedAffine rd eps sl bn (constAff u lo) g' ∧ g.uc = g'.bu ∧ g.lc = g'.bl) := by
      rintro ⟨g1, h1⟩ ⟨g2, h2⟩
      have x : l.RoundedAffine rd eps sl bn f g1 → g1.x = f.x := fun h => h.x
      exact ⟨{ g1 with uc := g2.bu, lc := g2.bl }, x h1, fun _ => ⟨g1, h1, rfl, rfl, rfl, rfl, rfl⟩, fun _ => ⟨u, lo, g2, ht, h2, rfl, rfl⟩⟩
    cases l with
    | relu gf gb => exact (exists_reluMode rd m eps sl f).imp fun _ h => ⟨hp.2, h⟩
    | skip => exact ⟨_, rfl⟩
    | _ => exact build (exists_linearPart rd eps sl bn hbn _ hn.2 trivial f) (exists_linearPart rd eps sl bn hbn _ hn.2 trivial _)
  | merge op n0 n1 ih0 ih1 =>
    obtain ⟨f0, h0⟩ := ih0 hn.1 hp.1 hm.2.1
    obtain ⟨f1, h1⟩ := ih1 hn.2 hp.2 hm.2.2
    suffices h : ∃ g, op.RoundedMode rd m eps f0 f1 g from h.elim fun g hg => ⟨g, f0, f1, h0, h1, hg⟩
    cases op with
    | add => exact exists_addMode rd m f0 f1
    | subtract => exact exists_addMode rd m f0 _
    | average =>
      obtain ⟨u0, l0, t0⟩ := exists_tight rd m f0
      obtain ⟨u1, l1, t1⟩ := exists_tight rd m f1
      exact ⟨⟨f0.x, _, _, _, _, _, _, fun _ => 0, fun _ => 0⟩, rfl, fun _ => ⟨rfl, fun _ _ => rfl, fun _ _ => rfl, fun _ => rfl, fun _ => rfl⟩,
        fun _ => ⟨u0, l0, u1, l1, t0, t1, fun k => ⟨rfl, rfl⟩⟩⟩
    | maximum => exact exists_maxMode rd m eps f0 f1
    | minimum => exact (exists_maxMode rd m eps _ _).elim fun g hg => ⟨_, g, hg, rfl⟩
    | multiply => exact absurd rfl hm.1

theorem upper_id (x : BoxOf ι α) (w : ι → α) (c : α) : UpperRounded id x w c (boxDomain.getUpper x w c) ∧ LowerRounded id x w c (boxDomain.getLower x w c) :=
  ⟨⟨_, isSum_id _, rfl⟩, ⟨_, isSum_id _, rfl⟩⟩

theorem tight_id (m : Mode) (f : Full (BoxOf ι α) ι κ α) : TightRounded id m f (f.tighten boxDomain m true true).uc (f.tighten boxDomain m true true).lc := by
  cases m with
  | ibp => exact ⟨rfl, rfl⟩
  | affine => exact fun k => ⟨(upper_id f.x _ _).1, (upper_id f.x _ _).2⟩
  | hybrid => exact ⟨_, _, fun k => ⟨(upper_id f.x _ _).1, (upper_id f.x _ _).2⟩, fun k => ⟨rfl, rfl⟩⟩

/-- A layer of `Plain` networks in exact arithmetic, on affine bounds. -/
theorem affine_id [Fintype κ] (eps : α) (sl : Slope) (l : Lay α κ κ') (hr : match l with | .relu gf _ => ∀ k, gf k = 1 | _ => True)
    (f : Full (BoxOf ι α) ι κ α) : l.RoundedAffine id eps sl 0 f (l.forward boxDomain .affine eps sl f) := by
  have c : ∀ (τ : Type) [Fintype τ] (p q : τ → α), IsSum id (fun t => p t * q t) (∑ t, q t * p t) := fun τ _ p q => by
    have := isSum_id fun t => p t * q t
    simpa only [mul_comm] using this
  cases l with
  | dense kernel bias =>
    exact ⟨rfl, fun i o => ⟨_, _, c _ _ _, c _ _ _, rfl⟩, fun i o => ⟨_, _, c _ _ _, c _ _ _, rfl⟩, fun o => ⟨_, _, c _ _ _, c _ _ _, rfl⟩,
      fun o => ⟨_, _, c _ _ _, c _ _ _, rfl⟩⟩
  | linear L kernel bias =>
    exact ⟨rfl, fun i o => ⟨_, _, c _ _ _, c _ _ _, rfl⟩, fun i o => ⟨_, _, c _ _ _, c _ _ _, rfl⟩, fun o => ⟨_, _, c _ _ _, c _ _ _, rfl⟩,
      fun o => ⟨_, _, c _ _ _, c _ _ _, rfl⟩⟩
  | relu gf gb =>
    have g1 : gf = fun _ => 1 := funext hr
    subst g1
    refine ⟨hr, _, _, fun k => (upper_id f.x _ _).1, fun k => (upper_id f.x _ _).2, rfl, fun k => ?_⟩
    simp only [hull_id]
    exact ⟨fun i => ⟨rfl, rfl⟩, rfl, rfl⟩
  | batchNorm gamma beta mean sd =>
    refine ⟨rfl, fun k => ⟨fun i => ⟨?_, ?_⟩, ?_, ?_⟩⟩ <;> simp [Lay.forward]
  | reshape e => rfl
  | skip => rfl

theorem addMode_id (m : Mode) (f0 f1 : Full (BoxOf ι α) ι κ α) : AddMode id m f0 f1 (addT boxDomain m f0 f1) := by
  refine ⟨by cases m <;> rfl, fun _ => ?_, fun _ => ⟨_, _, _, _, tight_id m f0, tight_id m f1, fun k => ⟨rfl, rfl⟩⟩⟩
  cases m <;> exact ⟨rfl, fun _ _ => rfl, fun _ _ => rfl, fun _ => rfl, fun _ => rfl⟩

theorem reluMode_id (m : Mode) (eps : α) (sl : Slope) (f : Full (BoxOf ι α) ι κ α) : ReluMode id m eps sl f (reluT boxDomain m false eps sl (fun _ => 1) f) := by
  refine ⟨_, _, tight_id m f, by cases m <;> rfl, fun h k => ?_, fun h k => ?_⟩
  · simp [reluT, h]
  · simp only [reluT, h, if_true, hull_id]
    cases m <;> simp [Full.tighten]

/-- C153: in exact arithmetic the bounds of the model are among those described. -/
theorem C153_exact (m : Mode) (eps : α) (sl : Slope) (inp : Full (BoxOf ι α) ι ι α) (n : Net α ι κ) (hp : n.Plain) (hm : n.NoMultiply) :
    n.RoundedMode id m eps sl 0 inp (n.forward boxDomain m eps sl inp) := by
  induction n with
  | input => rfl
  | layer n l ih =>
    refine ⟨_, ih hp.1 hm, ?_⟩
    change l.RoundedMode id m eps sl 0 _ (l.forward boxDomain m eps sl _)
    generalize n.forward boxDomain m eps sl inp = f
    cases l with
    | relu gf gb =>
      have g1 : gf = fun _ => 1 := funext hp.2
      subst g1
      exact ⟨hp.2, reluMode_id m eps sl f⟩
    | skip => rfl
    | dense kernel bias =>
      refine ⟨by cases m <;> rfl, fun ha => ⟨_, affine_id eps sl (.dense kernel bias) trivial f, ?_⟩,
        fun hi => ⟨_, _, _, tight_id m f, affine_id eps sl (.dense kernel bias) trivial _, ?_, ?_⟩⟩ <;> cases m <;>
        first | exact absurd ha Bool.false_ne_true | exact absurd hi Bool.false_ne_true | exact ⟨rfl, rfl, rfl, rfl, rfl⟩ | rfl
    | linear L kernel bias =>
      refine ⟨by cases m <;> rfl, fun ha => ⟨_, affine_id eps sl (.linear L kernel bias) trivial f, ?_⟩,
        fun hi => ⟨_, _, _, tight_id m f, affine_id eps sl (.linear L kernel bias) trivial _, ?_, ?_⟩⟩ <;> cases m <;>
        first | exact absurd ha Bool.false_ne_true | exact absurd hi Bool.false_ne_true | exact ⟨rfl, rfl, rfl, rfl, rfl⟩ | rfl
    | batchNorm gamma beta mean sd =>
      refine ⟨by cases m <;> rfl, fun ha => ⟨_, affine_id eps sl (.batchNorm gamma beta mean sd) trivial f, ?_⟩,
        fun hi => ⟨_, _, _, tight_id m f, affine_id eps sl (.batchNorm gamma beta mean sd) trivial _, ?_, ?_⟩⟩ <;> cases m <;>
        first | exact absurd ha Bool.false_ne_true | exact absurd hi Bool.false_ne_true | exact ⟨rfl, rfl, rfl, rfl, rfl⟩ | rfl
    | reshape e =>
      refine ⟨by cases m <;> rfl, fun ha => ⟨_, affine_id eps sl (.reshape e) trivial f, ?_⟩,
        fun hi => ⟨_, _, _, tight_id m f, affine_id eps sl (.reshape e) trivial _, ?_, ?_⟩⟩ <;> cases m <;>
        first | exact absurd ha Bool.false_ne_true | exact absurd hi Bool.false_ne_true | exact ⟨rfl, rfl, rfl, rfl, rfl⟩ | rfl
  | merge op n0 n1 ih0 ih1 =>
    refine ⟨_, _, ih0 hp.1 hm.2.1, ih1 hp.2 hm.2.2, ?_⟩
    change op.RoundedMode id m eps _ _ (op.forward boxDomain m eps _ _)
    generalize n0.forward boxDomain m eps sl inp = f0
    generalize n1.forward boxDomain m eps sl inp = f1
    cases op with
    | add =>
      refine ⟨rfl, fun ha => ?_, fun hi => ⟨_, _, _, _, tight_id m f0, tight_id m f1, fun k => ?_⟩⟩
      · cases m <;> first | exact absurd ha Bool.false_ne_true | (constructor <;> simp [MergeOp.forward, addLayerT, getAffine, Full.tighten])
      · cases m <;> first | exact absurd hi Bool.false_ne_true | simp [MergeOp.forward, addLayerT, getIbp, Full.tighten]
    | subtract => exact addMode_id m f0 _
    | average =>
      refine ⟨rfl, fun ha => ?_, fun hi => ⟨_, _, _, _, tight_id m f0, tight_id m f1, fun k => ?_⟩⟩
      · cases m <;> first
          | exact absurd ha Bool.false_ne_true
          | (constructor <;> simp [MergeOp.forward, averageLayerT, getAffine, Full.tighten, one_add_one_eq_two])
      · cases m <;> first
          | exact absurd hi Bool.false_ne_true
          | simp [MergeOp.forward, averageLayerT, getIbp, Full.tighten, one_add_one_eq_two]
    | maximum => exact ⟨_, _, addMode_id m f1 _, reluMode_id m eps .vSlope _, addMode_id m _ f0⟩
    | minimum => exact ⟨_, ⟨_, _, addMode_id m _ _, reluMode_id m eps .vSlope _, addMode_id m _ _⟩, rfl⟩
    | multiply => exact absurd rfl hm.1

end

/-- C153 on a residual block in float32, on the box `[-1,1]²`: in every mode the range that `get_range_box` computes encloses the outputs up to `1e-4`. -/
example (m : Mode) (sl : Slope) (g : Full (BoxOf (Fin 2) ℚ) (Fin 2) (Fin 2) ℚ)
    (hg : residualNet.RoundedMode (roundNearest 24) m (1 / 10000000) sl 0 (inputTensorsBox m (fun _ => -1) fun _ => 1) g) (k : Fin 2) (U L : ℚ)
    (hr : RangeMode (roundNearest 24) m (fun _ => -1, fun _ => 1) g k U L) (p : Fin 2 → ℚ) (hp : p ∈ Box (fun _ => -1) fun _ => (1 : ℚ)) :
    L - 1 / 10000 ≤ residualNet.eval p k ∧ residualNet.eval p k ≤ U + 1 / 10000 := by
  have a := C153_range (δ := (1 / 2) ^ 24) (by norm_num) (by norm_num) (C118_float_error 24) m (1 / 10000000) (by norm_num) sl 0 le_rfl
    (fun _ => -1, fun _ => 1) residualNet (by simp [residualNet, Net.WF, Lay.WF]) g hg k U L hr p hp
  have e : (residualNet.modeErr m ((1 / 2) ^ 24) (1 / 10000000) 0 (boxPeak (ι := Fin 2) (fun _ => -1, fun _ => 1)) k).readSlack m ((1 / 2) ^ 24)
      (Fintype.card (Fin 2)) ≤ 1 / 10000 := by
    clear a hr hg
    revert k
    cases m <;> decide +kernel
  constructor <;> linarith [a.1, a.2]

/-- C153: a score of `get_adv_box` below `-1e-4` for the source class 0 and the target class 1, computed in float32 in any mode, certifies the order of the
outputs that Keras computes in float32. -/
example (m : Mode) (sl : Slope) (g : Full (BoxOf (Fin 2) ℚ) (Fin 2) (Fin 2) ℚ)
    (hg : twoClassNet.RoundedMode (roundNearest 24) m (1 / 10000000) sl 0 (inputTensorsBox m (fun _ => 0) fun _ => 1 / 2) g) (R : ℚ)
    (hR : AdvMode (roundNearest 24) m (fun _ => 0, fun _ => 1 / 2) g {1} 0 R) (hc : R < -(1 / 10000)) (p : Fin 2 → ℚ)
    (hp : p ∈ Box (fun _ => 0) fun _ => (1 / 2 : ℚ)) (v : Fin 2 → ℚ) (hv : twoClassNet.RoundedCall (roundNearest 24) (fun _ _ _ _ _ => 0) p v) :
    v 1 < v 0 := by
  refine C153_adv_certificate (δ := (1 / 2) ^ 24) (by norm_num) (by norm_num) (C118_float_error 24) m (1 / 10000000) (by norm_num) sl 0 le_rfl
    (fun _ _ _ _ _ => 0) (fun _ _ _ _ _ => le_rfl) (fun _ _ _ _ _ _ _ _ => le_rfl) 1 one_pos (fun _ => 0, fun _ => 1 / 2) twoClassNet
    (by simp [twoClassNet, Net.WF, Lay.WF]) (by simp [twoClassNet, Net.SdAbove, Lay.SdAbove]) g hg {1} 0 R hR ?_ p hp v hv 1 rfl
  rintro j rfl
  refine lt_of_lt_of_le hc ?_
  clear hR hg hv hp hc
  cases m <;> decide +kernel

/-- C153: and there is such a score in every mode; in exact arithmetic it is `-1` in mode ibp and `-2` in modes affine and hybrid. -/
example : (AdvMode id .ibp (fun _ => 0, fun _ => 1 / 2) (twoClassNet.forward boxDomain .ibp (1 / 10000000) .vSlope
      (inputTensorsBox .ibp (fun _ => 0) fun _ => 1 / 2)) {1} 0 (-1)) ∧
    (AdvMode id .affine (fun _ => 0, fun _ => 1 / 2) (twoClassNet.forward boxDomain .affine (1 / 10000000) .vSlope
      (inputTensorsBox .affine (fun _ => 0) fun _ => 1 / 2)) {1} 0 (-2)) ∧
    (AdvMode id .hybrid (fun _ => 0, fun _ => 1 / 2) (twoClassNet.forward boxDomain .hybrid (1 / 10000000) .vSlope
      (inputTensorsBox .hybrid (fun _ => 0) fun _ => 1 / 2)) {1} 0 (-2)) := by
  refine ⟨?_, ?_, -1, -2, ?_, ?_, by norm_num⟩
  · rintro j rfl
    decide +kernel
  · rintro j rfl
    exact ⟨_, ⟨_, _, isSum_id _, isSum_id _, rfl⟩, by decide +kernel⟩
  · rintro j rfl
    decide +kernel
  · rintro j rfl
    exact ⟨_, ⟨_, _, isSum_id _, isSum_id _, rfl⟩, by decide +kernel⟩

end Decomon
