import Verif.Model.FloatMode
import Verif.Lemmas.FloatAffine

/-! Lemmas about the forward methods in rounded arithmetic in every mode. -/

namespace Decomon

section
variable {ι κ κ' α : Type} [Field α] [LinearOrder α] [IsStrictOrderedRing α] [Fintype ι] {rd : α → α} {δ : α}

/-- The computed bounds of a node have the sizes and the errors `e`. -/
structure ModeNear (m : Mode) (X : ι → α) (f : Full (BoxOf ι α) ι κ α) (p : ι → α) (y : κ → α) (e : κ → ModeErr α) : Prop where
  const : getIbp m = true → ∀ k, (f.lc k - (e k).cSlack ≤ y k ∧ y k ≤ f.uc k + (e k).cSlack) ∧ |f.uc k| ≤ (e k).cSize ∧ |f.lc k| ≤ (e k).cSize
  aff : getAffine m = true → (∀ k, f.sizeAff X k ≤ (e k).aSize) ∧ Near .affine f p y (fun k => (e k).aSlack)

/-- None of the sizes and errors is negative. -/
def ModeErr.Nonneg (e : ModeErr α) : Prop := 0 ≤ e.cSize ∧ 0 ≤ e.cSlack ∧ 0 ≤ e.aSize ∧ 0 ≤ e.aSlack

theorem ModeErr.Nonneg.read (hδ : 0 ≤ δ) {e : ModeErr α} (h : e.Nonneg) (m : Mode) (n : ℕ) : 0 ≤ e.readSize m δ n ∧ 0 ≤ e.readSlack m δ n := by
  obtain ⟨h1, h2, h3, h4⟩ := h
  have g0 := gamma_nonneg hδ (n + 2)
  have g1 := zero_le_one.trans (one_le_gamma hδ (n + 2))
  cases m with
  | hybrid => exact ⟨le_max_of_le_left h1, le_max_of_le_left h2⟩
  | ibp => exact ⟨h1, h2⟩
  | affine => exact ⟨mul_nonneg g1 h3, add_nonneg h4 (mul_nonneg g0 h3)⟩

/-- The two constant bounds computed from affine bounds of known size and error. -/
theorem upper_read (hδ : 0 ≤ δ) (h : RelError rd δ) {f : Full (BoxOf ι α) ι κ α} {X p : ι → α} (hX : ∀ i, |f.x.1 i| ≤ X i ∧ |f.x.2 i| ≤ X i)
    (hp : p ∈ Box f.x.1 f.x.2) {y s M : κ → α} (v : Near .affine f p y s) (hM : ∀ k, f.sizeAff X k ≤ M k) {k : κ} {u l : α}
    (hu : UpperRounded rd f.x (fun i => f.wu i k) (f.bu k) u) (hl : LowerRounded rd f.x (fun i => f.wl i k) (f.bl k) l) :
    (l - (s k + ((1 + δ) ^ (Fintype.card ι + 2) - 1) * M k) ≤ y k ∧ y k ≤ u + (s k + ((1 + δ) ^ (Fintype.card ι + 2) - 1) * M k)) ∧
      |u| ≤ (1 + δ) ^ (Fintype.card ι + 2) * M k ∧ |l| ≤ (1 + δ) ^ (Fintype.card ι + 2) * M k := by
  have g0 : 0 ≤ (1 + δ) ^ (Fintype.card ι + 2) - 1 := gamma_nonneg hδ _
  have hX0 : ∀ i, 0 ≤ X i := fun i => (abs_nonneg _).trans (hX i).1
  obtain ⟨d, hd, rfl⟩ := hu
  obtain ⟨d', hd', rfl⟩ := hl
  have z1 : (∑ i, |f.wu i k| * X i) + |f.bu k| ≤ M k := (add_le_add (Finset.sum_le_sum fun i _ =>
    mul_le_mul_of_nonneg_right (le_max_left _ _) (hX0 i)) (le_max_left _ _)).trans (hM k)
  have z2 : (∑ i, |f.wl i k| * X i) + |f.bl k| ≤ M k := (add_le_add (Finset.sum_le_sum fun i _ =>
    mul_le_mul_of_nonneg_right (le_max_right _ _) (hX0 i)) (le_max_right _ _)).trans (hM k)
  have q1 := box_sum_error hδ h f.x.2 f.x.1 (fun i => f.wu i k) X (f.bu k) d (fun i => (hX i).2) (fun i => (hX i).1) hd
  have q2 := box_sum_error hδ h f.x.1 f.x.2 (fun i => f.wl i k) X (f.bl k) d' (fun i => (hX i).1) (fun i => (hX i).2) hd'
  have r1 := q1.1.trans (mul_le_mul_of_nonneg_left z1 g0)
  have r2 := q2.1.trans (mul_le_mul_of_nonneg_left z2 g0)
  have r1' := abs_le.1 r1
  have r2' := abs_le.1 r2
  have s1 := (boxDomain_sound f.x.1 f.x.2 p hp (fun i => f.wu i k) (f.bu k)).2
  have s2 := (boxDomain_sound f.x.1 f.x.2 p hp (fun i => f.wl i k) (f.bl k)).1
  simp only [boxDomain, getUpperBox, getLowerBox] at s1 s2
  have a := v.aff rfl k
  refine ⟨⟨?_, ?_⟩, abs_of_close r1 (q1.2.trans z1), abs_of_close r2 (q2.2.trans z2)⟩
  · linarith [a.1, r2'.2]
  · linarith [a.2, r1'.1]

theorem abs_min_le' {a b c d : α} (ha : |a| ≤ c) (hb : |b| ≤ d) : |min a b| ≤ max c d := by
  rcases min_choice a b with h | h <;> rw [h]
  exacts [ha.trans (le_max_left _ _), hb.trans (le_max_right _ _)]

theorem abs_max_le' {a b c d : α} (ha : |a| ≤ c) (hb : |b| ≤ d) : |max a b| ≤ max c d := by
  rcases max_choice a b with h | h <;> rw [h]
  exacts [ha.trans (le_max_left _ _), hb.trans (le_max_right _ _)]

/-- What a layer reads. -/
theorem TightRounded.read (hδ : 0 ≤ δ) (h : RelError rd δ) {m : Mode} {f : Full (BoxOf ι α) ι κ α} {X p : ι → α}
    (hX : ∀ i, |f.x.1 i| ≤ X i ∧ |f.x.2 i| ≤ X i) (hp : p ∈ Box f.x.1 f.x.2) {y : κ → α} {e : κ → ModeErr α} (v : ModeNear m X f p y e) {u l : κ → α}
    (ht : TightRounded rd m f u l) (k : κ) :
    (l k - (e k).readSlack m δ (Fintype.card ι) ≤ y k ∧ y k ≤ u k + (e k).readSlack m δ (Fintype.card ι)) ∧
      |u k| ≤ (e k).readSize m δ (Fintype.card ι) ∧ |l k| ≤ (e k).readSize m δ (Fintype.card ι) := by
  cases m with
  | ibp =>
    obtain ⟨rfl, rfl⟩ := ht
    exact v.const rfl k
  | affine =>
    obtain ⟨a, b⟩ := v.aff rfl
    exact upper_read hδ h hX hp b a (ht k).1 (ht k).2
  | hybrid =>
    obtain ⟨ua, la, h1, h2⟩ := ht
    obtain ⟨a, b⟩ := v.aff rfl
    obtain ⟨⟨c1, c2⟩, c3, c4⟩ := v.const rfl k
    obtain ⟨⟨d1, d2⟩, d3, d4⟩ := upper_read hδ h hX hp b a (h1 k).1 (h1 k).2
    rw [(h2 k).1, (h2 k).2]
    have x1 := le_max_left (e k).cSlack ((e k).aSlack + ((1 + δ) ^ (Fintype.card ι + 2) - 1) * (e k).aSize)
    have x2 := le_max_right (e k).cSlack ((e k).aSlack + ((1 + δ) ^ (Fintype.card ι + 2) - 1) * (e k).aSize)
    refine ⟨⟨?_, ?_⟩, abs_min_le' c3 d3, abs_max_le' c4 d4⟩
    · simp only [ModeErr.readSlack]
      rw [sub_le_iff_le_add, max_le_iff]
      constructor <;> linarith
    · simp only [ModeErr.readSlack]
      rw [← sub_le_iff_le_add, le_min_iff]
      constructor <;> linarith

/-- The products with the lines of the computed hull of ReLU, for bounds `u`, `l` with the error `r`. -/
theorem hull_apply (hδ : 0 ≤ δ) (hδ1 : δ < 1) (h : RelError rd δ) {eps : α} (he : 0 < eps) {sl : Slope} {f g : Full (BoxOf ι α) ι κ α} {u l : κ → α}
    (hg : ∀ k, (∀ i, g.wu i k = rd ((roundedHullRelu rd eps sl (u k) (l k)).wu * f.wu i k) ∧
        g.wl i k = rd ((roundedHullRelu rd eps sl (u k) (l k)).wl * f.wl i k)) ∧
      g.bu k = rd (rd ((roundedHullRelu rd eps sl (u k) (l k)).wu * f.bu k) + (roundedHullRelu rd eps sl (u k) (l k)).bu) ∧
      g.bl k = rd (rd ((roundedHullRelu rd eps sl (u k) (l k)).wl * f.bl k) + (roundedHullRelu rd eps sl (u k) (l k)).bl))
    {p X : ι → α} (hp : ∀ i, |p i| ≤ X i) {y s M L r : κ → α} (hs : ∀ k, 0 ≤ s k) (hr : ∀ k, 0 ≤ r k) (v : Near .affine f p y s)
    (hM : ∀ k, f.sizeAff X k ≤ M k) (la : ∀ k, |l k| ≤ L k) (hc : ∀ k, l k - r k ≤ y k ∧ y k ≤ u k + r k) :
    (∀ k, g.sizeAff X k ≤ (1 + δ) ^ 5 / (1 - δ) * (M k + L k)) ∧
      Near .affine g p (fun k => relu (y k)) (fun k => s k + r k + eps / 4 + ((1 + δ) ^ 5 / (1 - δ) - 1) * (M k + L k)) := by
  have hX0 : ∀ i, 0 ≤ X i := fun i => (abs_nonneg _).trans (hp i)
  have H := fun k => hull_close hδ hδ1 h he sl (u k) (l k)
  choose c c0 c1 hcl using fun k => (H k).2.2.2.1
  have q3 : 0 ≤ (1 + δ) ^ 2 / (1 - δ) - 1 := sub_nonneg.2 (one_le_quot hδ hδ1 2)
  have hd1 : 0 < 1 - δ := by linarith
  have up : ∀ n : ℕ, n ≤ 5 → (1 + δ) ^ n / (1 - δ) ≤ (1 + δ) ^ 5 / (1 - δ) := fun n hn =>
    div_le_div_of_nonneg_right (pow_le_pow_right₀ (by linarith) hn) hd1.le
  have key : Near .affine { f with
      wu := fun i k => (linearHullRelu eps sl 1 (u k) (l k)).wu * f.wu i k
      bu := fun k => (linearHullRelu eps sl 1 (u k) (l k)).wu * f.bu k + (linearHullRelu eps sl 1 (u k) (l k)).bu
      wl := fun i k => c k * f.wl i k
      bl := fun k => c k * f.bl k + 0 } p (fun k => relu (y k)) (fun k => s k + r k + eps / 4) := by
    refine ⟨fun hi => absurd hi (by simp [getIbp]), fun ha k => ?_⟩
    obtain ⟨⟨a1, a2⟩, -⟩ := hullRelu_unit (eps := eps) (g := 1) (u k) (l k) sl he zero_le_one le_rfl
    have w1 := hullRelu_upper_near sl he (zero_le_one (α := α)) le_rfl (hr k) (hc k).1 (hc k).2
    have z := v.aff ha k
    have e : ∀ (c b : α) (w : ι → α) (b0 : α), affEval (fun i => c * w i) (c * b0 + b) p = c * affEval w b0 p + b := fun c b w b0 => by
      simp only [affEval, mul_add, Finset.mul_sum]
      rw [add_assoc]
      congr 1
      exact Finset.sum_congr rfl fun i _ => by ring
    rw [e, e]
    have z1 := mul_le_mul_of_nonneg_left z.2 a1
    have z2 := mul_le_mul_of_nonneg_left z.1 (c0 k)
    have q1 := mul_le_mul_of_nonneg_right a2 (hs k)
    have q2 := mul_le_mul_of_nonneg_right (c1 k) (hs k)
    have r1 : c k * y k ≤ relu (y k) := by
      rcases le_total 0 (y k) with hy | hy
      · rw [relu_of_nonneg hy]; nlinarith [c1 k]
      · rw [relu_of_nonpos hy]; nlinarith [c0 k]
    have := hs k
    have := hr k
    constructor <;> linarith
  have step : ∀ {a A x : α}, |a - A| ≤ ((1 + δ) ^ 2 / (1 - δ) - 1) * 1 → 0 ≤ A → A ≤ 1 →
      |rd (a * x) - A * x| ≤ ((1 + δ) ^ 3 / (1 - δ) - 1) * |x| ∧ |A * x| ≤ |x| := fun {a A x} ha h0 h1 => by
    have q : |A * x| ≤ 1 * |x| := by rw [abs_mul, abs_of_nonneg h0]; exact mul_le_mul_of_nonneg_right h1 (abs_nonneg _)
    have := rd_step hδ h (mul_close ha (by simpa using q3) (le_refl |x|)) q
    rw [one_mul] at this q
    rw [show (1 + δ) ^ 2 / (1 - δ) * (1 + δ) = (1 + δ) ^ 3 / (1 - δ) by ring] at this
    exact ⟨this, q⟩
  have wk : ∀ {a A x S : α} (n : ℕ), n ≤ 5 → |a - A| ≤ ((1 + δ) ^ n / (1 - δ) - 1) * x → |A| ≤ x → x ≤ S →
      |a - A| ≤ ((1 + δ) ^ 5 / (1 - δ) - 1) * S ∧ |A| ≤ S := fun {a A x S} n hn h1 h2 h3 => by
    refine ⟨h1.trans (mul_le_mul (by linarith [up n hn]) h3 ((abs_nonneg _).trans h2) ?_), h2.trans h3⟩
    exact sub_nonneg.2 (one_le_quot hδ hδ1 5)
  refine close_step (g := g) (M := fun k => M k + L k) hX0 key hp ((1 + δ) ^ 5 / (1 - δ)) (one_le_quot hδ hδ1 5)
    (fun i k => max |f.wu i k| |f.wl i k|) (fun k => max |f.bu k| |f.bl k| + |l k|) (fun i k => ?_) (fun k => ?_) fun k => ?_
  · obtain ⟨⟨a1, a2⟩, -⟩ := hullRelu_unit (eps := eps) (g := 1) (u k) (l k) sl he zero_le_one le_rfl
    have x1 := step (x := f.wu i k) (H k).1 a1 a2
    have x2 := step (x := f.wl i k) (hcl k) (c0 k) (c1 k)
    rw [((hg k).1 i).1, ((hg k).1 i).2]
    exact ⟨wk 3 (by norm_num) x1.1 x1.2 (le_max_left _ _), wk 3 (by norm_num) x2.1 x2.2 (le_max_right _ _)⟩
  · obtain ⟨⟨a1, a2⟩, -⟩ := hullRelu_unit (eps := eps) (g := 1) (u k) (l k) sl he zero_le_one le_rfl
    have x1 := step (x := f.bu k) (H k).1 a1 a2
    have x2 := step (x := f.bl k) (hcl k) (c0 k) (c1 k)
    rw [(hg k).2.1, (hg k).2.2, (H k).2.2.2.2]
    have up4 : (1 + δ) ^ 3 / (1 - δ) ≤ (1 + δ) ^ 4 / (1 - δ) := div_le_div_of_nonneg_right (pow_le_pow_right₀ (by linarith) (by norm_num)) hd1.le
    have e45 : (1 + δ) ^ 4 / (1 - δ) * (1 + δ) = (1 + δ) ^ 5 / (1 - δ) := by ring
    have y1 := rd_add hδ h (c := (1 + δ) ^ 4 / (1 - δ)) (x1.1.trans (mul_le_mul_of_nonneg_right (by linarith) (abs_nonneg _))) (H k).2.1 x1.2 (H k).2.2.1
    have y2 := rd_add hδ h (c := (1 + δ) ^ 4 / (1 - δ)) (b := 0) (B := 0) (SB := |l k|)
      (x2.1.trans (mul_le_mul_of_nonneg_right (by linarith) (abs_nonneg _)))
      (by rw [sub_self, abs_zero]; exact mul_nonneg (sub_nonneg.2 (one_le_quot hδ hδ1 4)) (abs_nonneg _)) x2.2 (by rw [abs_zero]; exact abs_nonneg _)
    rw [e45] at y1 y2
    exact ⟨wk 5 le_rfl y1 ((abs_add_le _ _).trans (add_le_add x1.2 (H k).2.2.1)) (add_le_add (le_max_left _ _) le_rfl),
      wk 5 le_rfl y2 ((abs_add_le _ _).trans (add_le_add x2.2 (by rw [abs_zero]; exact abs_nonneg _))) (add_le_add (le_max_right _ _) le_rfl)⟩
  · have := hM k
    have := la k
    rw [Full.sizeAff] at *
    linarith

theorem relu_abs_le {u L : α} (h : |u| ≤ L) : |relu u| ≤ L := by
  rcases le_total 0 u with q | q
  · rwa [relu_of_nonneg q]
  · rw [relu_of_nonpos q, abs_zero]; exact (abs_nonneg _).trans h

theorem relu_shift {a b r : α} (hr : 0 ≤ r) (h : a ≤ b + r) : relu a ≤ relu b + r := by
  simp only [relu]
  exact max_le (h.trans (add_le_add (le_max_left _ _) le_rfl)) (add_nonneg (le_max_right _ _) hr)

theorem ReluMode.near (hδ : 0 ≤ δ) (hδ1 : δ < 1) (h : RelError rd δ) {m : Mode} {eps : α} (he : 0 < eps) {sl : Slope} {f g : Full (BoxOf ι α) ι κ α}
    (hg : ReluMode rd m eps sl f g) {X p : ι → α} (hX : ∀ i, |f.x.1 i| ≤ X i ∧ |f.x.2 i| ≤ X i) (hp : p ∈ Box f.x.1 f.x.2) (hpX : ∀ i, |p i| ≤ X i)
    {y : κ → α} {e : κ → ModeErr α} (h0 : ∀ k, (e k).Nonneg) (v : ModeNear m X f p y e) :
    ModeNear m X g p (fun k => relu (y k)) (fun k => (e k).relu m δ eps (Fintype.card ι)) := by
  obtain ⟨u, l, ht, -, hc, ha⟩ := hg
  have R := fun k => ht.read hδ h hX hp v k
  have r0 := fun k => ((h0 k).read hδ m (Fintype.card ι)).2
  refine ⟨fun hi k => ?_, fun hi => ?_⟩
  · rw [(hc hi k).1, (hc hi k).2]
    refine ⟨⟨?_, relu_shift (r0 k) (R k).1.2⟩, relu_abs_le (R k).2.1, relu_abs_le (R k).2.2⟩
    have := relu_shift (r0 k) (sub_le_iff_le_add.1 (R k).1.1)
    exact sub_le_iff_le_add.2 this
  · obtain ⟨a, b⟩ := v.aff hi
    exact hull_apply hδ hδ1 h he (ha hi) hpX (fun k => (h0 k).2.2.2) r0 b a (fun k => (R k).2.2) (fun k => (R k).1)

theorem constAff_near {u l y s : κ → α} (h : ∀ k, l k - s k ≤ y k ∧ y k ≤ u k + s k) : Near .affine (constAff u l) Empty.elim y s :=
  ⟨fun hi => absurd hi (by simp [getIbp]), fun _ k => by simpa [constAff, affEval] using h k⟩

theorem constAff_size {u l M : κ → α} (h : ∀ k, |u k| ≤ M k ∧ |l k| ≤ M k) (k : κ) : (constAff u l).sizeAff Empty.elim k ≤ M k := by
  simpa [constAff, Full.sizeAff] using h k

/-- The constant part read off affine bounds in no inputs. -/
theorem const_of_aff {g : Full (BoxOf Empty α) Empty κ α} {y s M : κ → α} (h : (∀ k, g.sizeAff Empty.elim k ≤ M k) ∧ Near .affine g Empty.elim y s) (k : κ) :
    (g.bl k - s k ≤ y k ∧ y k ≤ g.bu k + s k) ∧ |g.bu k| ≤ M k ∧ |g.bl k| ≤ M k := by
  have a := h.2.aff rfl k
  have b := h.1 k
  simp [Full.sizeAff, affEval] at a b
  exact ⟨⟨by linarith [a.1], a.2⟩, b⟩

theorem constAff_sound (u l : κ → α) : boxDomain.Sound (constAff u l).x (Box (Empty.elim : Empty → α) Empty.elim) := boxDomain_sound _ _

/-- A layer other than ReLU, in its constant and its affine part. -/
theorem linear_part [Fintype κ] (hδ : 0 ≤ δ) (hδ1 : δ < 1) (h : RelError rd δ) {m : Mode} {eps : α} (he : 0 < eps) {sl : Slope} {bn : α} (hbn : 0 ≤ bn)
    {l : Lay α κ κ'} (hl : l.WF) (hG : ∀ n, l.growAff δ bn n = l.growAff δ bn (Fintype.card ι)) (hL : ∀ n, l.lossAff δ bn n = l.lossAff δ bn (Fintype.card ι))
    {f : Full (BoxOf ι α) ι κ α} {g : Full (BoxOf ι α) ι κ' α}
    (ha : getAffine m = true → ∃ g', l.RoundedAffine rd eps sl bn f g' ∧ g.SameAff g')
    (hc : getIbp m = true → ∃ u lo g', TightRounded rd m f u lo ∧ l.RoundedAffine rd eps sl bn (constAff u lo) g' ∧ g.uc = g'.bu ∧ g.lc = g'.bl)
    {X p : ι → α} (hX : ∀ i, |f.x.1 i| ≤ X i ∧ |f.x.2 i| ≤ X i) (hp : p ∈ Box f.x.1 f.x.2) (hpX : ∀ i, |p i| ≤ X i) {y : κ → α} {e : κ → ModeErr α}
    (h0 : ∀ k, (e k).Nonneg) (v : ModeNear m X f p y e) :
    ModeNear m X g p (l.eval y) (fun k =>
      { cSize := l.growAff δ bn (Fintype.card ι) (fun j => (e j).readSize m δ (Fintype.card ι)) k
        cSlack := l.spreadTol eps (fun j => (e j).readSlack m δ (Fintype.card ι)) k +
          l.lossAff δ bn (Fintype.card ι) (fun j => (e j).readSize m δ (Fintype.card ι)) k
        aSize := l.growAff δ bn (Fintype.card ι) (fun j => (e j).aSize) k
        aSlack := l.spreadTol eps (fun j => (e j).aSlack) k + l.lossAff δ bn (Fintype.card ι) (fun j => (e j).aSize) k }) := by
  refine ⟨fun hi k => ?_, fun hi => ?_⟩
  · obtain ⟨u, lo, g', ht, hg, e1, e2⟩ := hc hi
    have R := fun k => ht.read hδ h hX hp v k
    have q := Lay.float_near hδ hδ1 h he hbn hl hg (constAff_sound u lo) (p := Empty.elim) (X := Empty.elim) (fun i => i.elim) (fun i => i.elim)
      (fun i => i.elim) (fun k => ((h0 k).read hδ m (Fintype.card ι)).2) (constAff_near fun k => (R k).1) (constAff_size fun k => (R k).2)
    rw [hG, hL] at q
    rw [e1, e2]
    exact const_of_aff q k
  · obtain ⟨g', hg, e1, e2, e3, e4, e5⟩ := ha hi
    obtain ⟨a, b⟩ := v.aff hi
    have q := Lay.float_near hδ hδ1 h he hbn hl hg (boxDomain_sound f.x.1 f.x.2) hp hX hpX (fun k => (h0 k).2.2.2) b a
    refine ⟨fun k => ?_, ⟨fun hi => absurd hi (by simp [getIbp]), fun _ k => ?_⟩⟩
    · rw [Full.sizeAff, e2, e3, e4, e5]; exact q.1 k
    · rw [e2, e3, e4, e5]; exact q.2.aff rfl k

theorem Lay.RoundedMode.near [Fintype κ] (hδ : 0 ≤ δ) (hδ1 : δ < 1) (h : RelError rd δ) {m : Mode} {eps : α} (he : 0 < eps) {sl : Slope} {bn : α} (hbn : 0 ≤ bn)
    {l : Lay α κ κ'} (hl : l.WF) {f : Full (BoxOf ι α) ι κ α} {g : Full (BoxOf ι α) ι κ' α} (hg : l.RoundedMode rd m eps sl bn f g)
    {X p : ι → α} (hX : ∀ i, |f.x.1 i| ≤ X i ∧ |f.x.2 i| ≤ X i) (hp : p ∈ Box f.x.1 f.x.2) (hpX : ∀ i, |p i| ≤ X i) {y : κ → α} {e : κ → ModeErr α}
    (h0 : ∀ k, (e k).Nonneg) (v : ModeNear m X f p y e) : ModeNear m X g p (l.eval y) (l.modeErr m δ eps bn (Fintype.card ι) e) := by
  cases l with
  | relu gf gb => exact hg.2.near hδ hδ1 h he hX hp hpX h0 v
  | skip => obtain rfl := hg; exact v
  | dense kernel bias => exact linear_part hδ hδ1 h he hbn hl (fun _ => rfl) (fun _ => rfl) hg.2.1 hg.2.2 hX hp hpX h0 v
  | linear L kernel bias => exact linear_part hδ hδ1 h he hbn hl (fun _ => rfl) (fun _ => rfl) hg.2.1 hg.2.2 hX hp hpX h0 v
  | batchNorm gamma beta mean sd => exact linear_part hδ hδ1 h he hbn hl (fun _ => rfl) (fun _ => rfl) hg.2.1 hg.2.2 hX hp hpX h0 v
  | reshape r => exact linear_part hδ hδ1 h he hbn hl (fun _ => rfl) (fun _ => rfl) hg.2.1 hg.2.2 hX hp hpX h0 v

theorem Lay.RoundedMode.x [Fintype κ] {m : Mode} {eps : α} {sl : Slope} {bn : α} {l : Lay α κ κ'} {f : Full (BoxOf ι α) ι κ α} {g : Full (BoxOf ι α) ι κ' α}
    (h : l.RoundedMode rd m eps sl bn f g) : g.x = f.x := by
  cases l with
  | relu gf gb => exact h.2.choose_spec.choose_spec.2.1
  | skip => rw [h]
  | dense kernel bias => exact h.1
  | linear L kernel bias => exact h.1
  | batchNorm gamma beta mean sd => exact h.1
  | reshape r => exact h.1

theorem AddMode.near (hδ : 0 ≤ δ) (h : RelError rd δ) {m : Mode} {f0 f1 g : Full (BoxOf ι α) ι κ α} (hg : AddMode rd m f0 f1 g) (hx : f1.x = f0.x)
    {X p : ι → α} (hX : ∀ i, |f0.x.1 i| ≤ X i ∧ |f0.x.2 i| ≤ X i) (hp : p ∈ Box f0.x.1 f0.x.2) (hpX : ∀ i, |p i| ≤ X i) {y0 y1 : κ → α}
    {e0 e1 : κ → ModeErr α} (v0 : ModeNear m X f0 p y0 e0) (v1 : ModeNear m X f1 p y1 e1) :
    ModeNear m X g p (fun k => y0 k + y1 k) (fun k => (e0 k).add m δ (Fintype.card ι) (e1 k)) := by
  obtain ⟨-, ha, hc⟩ := hg
  have hX1 := hX
  have hp1 := hp
  rw [← hx] at hX1 hp1
  refine ⟨fun hi k => ?_, fun hi => ?_⟩
  · obtain ⟨u0, l0, u1, l1, t0, t1, hk⟩ := hc hi
    have R0 := fun k => t0.read hδ h hX hp v0 k
    have R1 := fun k => t1.read hδ h hX1 hp1 v1 k
    have q := float_add hδ h (f0 := constAff u0 l0) (f1 := constAff u1 l1) (g := constAff g.uc g.lc) ⟨rfl, fun i => i.elim, fun i => i.elim, fun k => (hk k).1, fun k => (hk k).2⟩
      (constAff_sound u0 l0) (constAff_sound u1 l1) (p := Empty.elim) (X := Empty.elim) (fun i => i.elim) (fun i => i.elim) (fun i => i.elim)
      (constAff_near fun k => (R0 k).1) (constAff_near fun k => (R1 k).1) (constAff_size fun k => (R0 k).2) (constAff_size fun k => (R1 k).2)
    exact const_of_aff q k
  · obtain ⟨a0, b0⟩ := v0.aff hi
    obtain ⟨a1, b1⟩ := v1.aff hi
    exact float_add hδ h (ha hi) (boxDomain_sound f0.x.1 f0.x.2) (by rw [hx]; exact boxDomain_sound f0.x.1 f0.x.2) hp
      (fun i => (abs_nonneg _).trans (hpX i)) hpX b0 b1 a0 a1

theorem AverageMode.near (hδ : 0 ≤ δ) (h : RelError rd δ) {m : Mode} {f0 f1 g : Full (BoxOf ι α) ι κ α} (hg : AverageMode rd m f0 f1 g) (hx : f1.x = f0.x)
    {X p : ι → α} (hX : ∀ i, |f0.x.1 i| ≤ X i ∧ |f0.x.2 i| ≤ X i) (hp : p ∈ Box f0.x.1 f0.x.2) (hpX : ∀ i, |p i| ≤ X i) {y0 y1 : κ → α}
    {e0 e1 : κ → ModeErr α} (n0 : ∀ k, (e0 k).Nonneg) (n1 : ∀ k, (e1 k).Nonneg) (v0 : ModeNear m X f0 p y0 e0) (v1 : ModeNear m X f1 p y1 e1) :
    ModeNear m X g p (fun k => MergeOp.average.eval (y0 k) (y1 k)) (fun k => (e0 k).average m δ (Fintype.card ι) (e1 k)) := by
  obtain ⟨-, ha, hc⟩ := hg
  have hX1 := hX
  have hp1 := hp
  rw [← hx] at hX1 hp1
  refine ⟨fun hi k => ?_, fun hi => ?_⟩
  · obtain ⟨u0, l0, u1, l1, t0, t1, hk⟩ := hc hi
    have R0 := fun k => t0.read hδ h hX hp v0 k
    have R1 := fun k => t1.read hδ h hX1 hp1 v1 k
    have q := float_average hδ h one_pos (f0 := constAff u0 l0) (f1 := constAff u1 l1) (g := constAff g.uc g.lc) ⟨rfl, fun i => i.elim, fun i => i.elim, fun k => (hk k).1, fun k => (hk k).2⟩
      (constAff_sound u0 l0) (constAff_sound u1 l1) (p := Empty.elim) (X := Empty.elim) (fun i => i.elim) (fun i => i.elim) (fun i => i.elim)
      (fun k => ((n0 k).read hδ m (Fintype.card ι)).2) (fun k => ((n1 k).read hδ m (Fintype.card ι)).2)
      (constAff_near fun k => (R0 k).1) (constAff_near fun k => (R1 k).1) (constAff_size fun k => (R0 k).2) (constAff_size fun k => (R1 k).2)
    exact const_of_aff q k
  · obtain ⟨a0, b0⟩ := v0.aff hi
    obtain ⟨a1, b1⟩ := v1.aff hi
    exact float_average hδ h one_pos (ha hi) (boxDomain_sound f0.x.1 f0.x.2) (by rw [hx]; exact boxDomain_sound f0.x.1 f0.x.2) hp
      (fun i => (abs_nonneg _).trans (hpX i)) hpX (fun k => (n0 k).2.2.2) (fun k => (n1 k).2.2.2) b0 b1 a0 a1

theorem minus_near {m : Mode} {f : Full (BoxOf ι α) ι κ α} {X p : ι → α} {y : κ → α} {e : κ → ModeErr α} (v : ModeNear m X f p y e) :
    ModeNear m X (minusT boxDomain m f) p (fun k => -y k) e := by
  have t : f.tighten boxDomain m false false = f := by simp [Full.tighten]
  refine ⟨fun hi k => ?_, fun hi => ⟨fun k => ?_, ⟨fun hi => absurd hi (by simp [getIbp]), fun _ k => ?_⟩⟩⟩
  · obtain ⟨⟨c1, c2⟩, c3, c4⟩ := v.const hi k
    simp only [minusT, t, abs_neg]
    exact ⟨⟨by linarith, by linarith⟩, c4, c3⟩
  · have := (v.aff hi).1 k
    simp only [Full.sizeAff, minusT, t, abs_neg] at this ⊢
    simpa only [max_comm] using this
  · have := (v.aff hi).2.aff rfl k
    have n : ∀ (w : ι → α) b, affEval (fun i => -w i) (-b) p = -affEval w b p := fun w b => by
      simp only [affEval, neg_mul, Finset.sum_neg_distrib]; ring
    simp only [minusT, t, n]
    constructor <;> linarith [this.1, this.2]

theorem ModeErr.Nonneg.relu (hδ : 0 ≤ δ) (hδ1 : δ < 1) {eps : α} (he : 0 < eps) {e : ModeErr α} (h : e.Nonneg) (m : Mode) (n : ℕ) : (e.relu m δ eps n).Nonneg := by
  obtain ⟨r1, r2⟩ := h.read hδ m n
  have q := one_le_quot hδ hδ1 5
  have s := add_nonneg h.2.2.1 r1
  have := mul_nonneg (sub_nonneg.2 q) s
  have := h.2.2.2
  exact ⟨r1, r2, mul_nonneg (zero_le_one.trans q) s, by simp only [ModeErr.relu]; positivity⟩

theorem ModeErr.Nonneg.add (hδ : 0 ≤ δ) {e0 e1 : ModeErr α} (h0 : e0.Nonneg) (h1 : e1.Nonneg) (m : Mode) (n : ℕ) : (e0.add m δ n e1).Nonneg := by
  obtain ⟨r1, r2⟩ := h0.read hδ m n
  obtain ⟨s1, s2⟩ := h1.read hδ m n
  obtain ⟨-, -, a, b⟩ := h0
  obtain ⟨-, -, c, d⟩ := h1
  refine ⟨?_, ?_, ?_, ?_⟩ <;> simp only [ModeErr.add] <;> positivity

theorem ModeErr.Nonneg.average (hδ : 0 ≤ δ) {e0 e1 : ModeErr α} (h0 : e0.Nonneg) (h1 : e1.Nonneg) (m : Mode) (n : ℕ) : (e0.average m δ n e1).Nonneg := by
  obtain ⟨r1, r2⟩ := h0.read hδ m n
  obtain ⟨s1, s2⟩ := h1.read hδ m n
  obtain ⟨-, -, a, b⟩ := h0
  obtain ⟨-, -, c, d⟩ := h1
  have := gamma_nonneg hδ 2
  refine ⟨?_, ?_, ?_, ?_⟩ <;> simp only [ModeErr.average] <;> positivity

theorem AddMode.x {m : Mode} {f0 f1 g : Full (BoxOf ι α) ι κ α} (h : AddMode rd m f0 f1 g) : g.x = f0.x := h.1

theorem ReluMode.x {m : Mode} {eps : α} {sl : Slope} {f g : Full (BoxOf ι α) ι κ α} (h : ReluMode rd m eps sl f g) : g.x = f.x := by
  obtain ⟨u, l, -, h, -⟩ := h
  exact h

theorem MaxMode.near (hδ : 0 ≤ δ) (hδ1 : δ < 1) (h : RelError rd δ) {m : Mode} {eps : α} (he : 0 < eps) {f0 f1 g : Full (BoxOf ι α) ι κ α}
    (hg : MaxMode rd m eps f0 f1 g) (hx : f1.x = f0.x) {X p : ι → α} (hX : ∀ i, |f0.x.1 i| ≤ X i ∧ |f0.x.2 i| ≤ X i) (hp : p ∈ Box f0.x.1 f0.x.2)
    (hpX : ∀ i, |p i| ≤ X i) {y0 y1 : κ → α} {e0 e1 : κ → ModeErr α} (n0 : ∀ k, (e0 k).Nonneg) (n1 : ∀ k, (e1 k).Nonneg) (v0 : ModeNear m X f0 p y0 e0)
    (v1 : ModeNear m X f1 p y1 e1) : g.x = f0.x ∧ ModeNear m X g p (fun k => max (y0 k) (y1 k)) (fun k => MergeOp.maximum.modeErr m δ eps (Fintype.card ι) (e0 k) (e1 k)) := by
  obtain ⟨d, r, a1, a2, a3⟩ := hg
  have xd : d.x = f0.x := a1.x.trans hx
  have xr : r.x = f0.x := a2.x.trans xd
  have w1 := a1.near hδ h (by rw [minus_x, hx]) (by rwa [hx]) (by rwa [hx]) hpX v1 (minus_near v0)
  have w2 := a2.near hδ hδ1 h he (by rwa [xd]) (by rwa [xd]) hpX (fun k => (n1 k).add hδ (n0 k) m _) w1
  have w3 := a3.near hδ h xr.symm (by rwa [xr]) (by rwa [xr]) hpX w2 v0
  refine ⟨a3.x.trans xr, ?_⟩
  have e : (fun k => max (y0 k) (y1 k)) = fun k => relu (y1 k + -y0 k) + y0 k := funext fun k => by
    rw [relu, ← max_add_add_right, zero_add, neg_add_cancel_right, max_comm]
  rw [e]
  exact w3

theorem MergeOp.RoundedMode.near (hδ : 0 ≤ δ) (hδ1 : δ < 1) (h : RelError rd δ) {m : Mode} {eps : α} (he : 0 < eps) {op : MergeOp}
    {f0 f1 g : Full (BoxOf ι α) ι κ α} (hg : op.RoundedMode rd m eps f0 f1 g) (hx : f1.x = f0.x) {X p : ι → α}
    (hX : ∀ i, |f0.x.1 i| ≤ X i ∧ |f0.x.2 i| ≤ X i) (hp : p ∈ Box f0.x.1 f0.x.2)
    (hpX : ∀ i, |p i| ≤ X i) {y0 y1 : κ → α} {e0 e1 : κ → ModeErr α} (n0 : ∀ k, (e0 k).Nonneg) (n1 : ∀ k, (e1 k).Nonneg) (v0 : ModeNear m X f0 p y0 e0)
    (v1 : ModeNear m X f1 p y1 e1) :
    g.x = f0.x ∧ ModeNear m X g p (fun k => op.eval (y0 k) (y1 k)) (fun k => op.modeErr m δ eps (Fintype.card ι) (e0 k) (e1 k)) := by
  cases op with
  | add => exact ⟨AddMode.x hg, AddMode.near hδ h hg hx hX hp hpX v0 v1⟩
  | subtract =>
    have := AddMode.near hδ h hg (by rw [minus_x, hx]) hX hp hpX v0 (minus_near v1)
    simp only [← sub_eq_add_neg] at this
    exact ⟨AddMode.x hg, this⟩
  | average => exact ⟨hg.1, AverageMode.near hδ h hg hx hX hp hpX n0 n1 v0 v1⟩
  | maximum => exact MaxMode.near hδ hδ1 h he hg hx hX hp hpX n0 n1 v0 v1
  | minimum =>
    obtain ⟨g', hg, rfl⟩ := hg
    obtain ⟨q1, q2⟩ := MaxMode.near hδ hδ1 h he hg (by rw [minus_x, minus_x, hx]) (by rwa [minus_x]) (by rwa [minus_x]) hpX n0 n1 (minus_near v0) (minus_near v1)
    have := minus_near q2
    refine ⟨by rw [minus_x, q1, minus_x], ?_⟩
    have e : (fun k => -max (-y0 k) (-y1 k)) = fun k => MergeOp.minimum.eval (y0 k) (y1 k) := funext fun k => by
      simp [MergeOp.eval, max_neg_neg]
    rw [e] at this
    exact this
  | multiply => exact hg.elim

theorem Lay.modeErr_nonneg [Fintype κ] (hδ : 0 ≤ δ) (hδ1 : δ < 1) {eps bn : α} (he : 0 < eps) (hbn : 0 ≤ bn) (l : Lay α κ κ') (hl : l.WF) (m : Mode) (n : ℕ)
    {e : κ → ModeErr α} (h0 : ∀ k, (e k).Nonneg) (k : κ') : (l.modeErr m δ eps bn n e k).Nonneg := by
  have r := fun j => (h0 j).read hδ m n
  have a := l.lossAff_nonneg hδ hδ1 hbn hl n (fun j => (r j).1) k
  have b := l.lossAff_nonneg hδ hδ1 hbn hl n (fun j => (h0 j).2.2.1) k
  have s1 := l.spreadTol_nonneg he hl _ (fun j => (r j).2) k
  have s2 := l.spreadTol_nonneg he hl _ (fun j => (h0 j).2.2.2) k
  cases l with
  | relu gf gb => exact (h0 k).relu hδ hδ1 he m n
  | skip => exact h0 k
  | dense kernel bias => exact ⟨a.2, add_nonneg s1 a.1, b.2, add_nonneg s2 b.1⟩
  | linear L kernel bias => exact ⟨a.2, add_nonneg s1 a.1, b.2, add_nonneg s2 b.1⟩
  | batchNorm gamma beta mean sd => exact ⟨a.2, add_nonneg s1 a.1, b.2, add_nonneg s2 b.1⟩
  | reshape r => exact ⟨a.2, add_nonneg s1 a.1, b.2, add_nonneg s2 b.1⟩

theorem MergeOp.modeErr_nonneg (hδ : 0 ≤ δ) (hδ1 : δ < 1) {eps : α} (he : 0 < eps) (op : MergeOp) (m : Mode) (n : ℕ) {e0 e1 : ModeErr α} (h0 : e0.Nonneg)
    (h1 : e1.Nonneg) : (op.modeErr m δ eps n e0 e1).Nonneg := by
  cases op with
  | add => exact h0.add hδ h1 m n
  | subtract => exact h0.add hδ h1 m n
  | average => exact h0.average hδ h1 m n
  | maximum => exact ((h1.add hδ h0 m n).relu hδ hδ1 he m n).add hδ h0 m n
  | minimum => exact ((h1.add hδ h0 m n).relu hδ hδ1 he m n).add hδ h0 m n
  | multiply => exact ⟨le_rfl, le_rfl, le_rfl, le_rfl⟩

theorem Net.modeErr_nonneg (hδ : 0 ≤ δ) (hδ1 : δ < 1) {eps bn : α} (he : 0 < eps) (hbn : 0 ≤ bn) {X : ι → α} (hX : ∀ i, 0 ≤ X i) (m : Mode) {κ : Type}
    (n : Net α ι κ) (hn : n.WF) (k : κ) : (n.modeErr m δ eps bn X k).Nonneg := by
  induction n with
  | input => exact ⟨hX k, le_rfl, hX k, le_rfl⟩
  | layer n l ih => exact l.modeErr_nonneg hδ hδ1 he hbn hn.2 m _ (fun j => ih hn.1 j) k
  | merge op n0 n1 ih0 ih1 => exact op.modeErr_nonneg hδ hδ1 he m _ (ih0 hn.1 k) (ih1 hn.2 k)

/-- A whole network. -/
theorem Net.RoundedMode.near (hδ : 0 ≤ δ) (hδ1 : δ < 1) (h : RelError rd δ) {m : Mode} {eps : α} (he : 0 < eps) {sl : Slope} {bn : α} (hbn : 0 ≤ bn)
    {inp : Full (BoxOf ι α) ι ι α} {X p : ι → α} (hX : ∀ i, |inp.x.1 i| ≤ X i ∧ |inp.x.2 i| ≤ X i) (hp : p ∈ Box inp.x.1 inp.x.2) (hpX : ∀ i, |p i| ≤ X i)
    (hi : ModeNear m X inp p p (fun i => ⟨X i, 0, X i, 0⟩)) {κ : Type} {n : Net α ι κ} (hn : n.WF) {g : Full (BoxOf ι α) ι κ α}
    (hg : n.RoundedMode rd m eps sl bn inp g) : g.x = inp.x ∧ ModeNear m X g p (n.eval p) (n.modeErr m δ eps bn X) := by
  have hX0 : ∀ i, 0 ≤ X i := fun i => (abs_nonneg _).trans (hpX i)
  induction n with
  | input => obtain rfl := hg; exact ⟨rfl, hi⟩
  | layer n l ih =>
    obtain ⟨f, h1, h2⟩ := hg
    obtain ⟨x1, v1⟩ := ih hn.1 h1
    exact ⟨h2.x.trans x1, h2.near hδ hδ1 h he hbn hn.2 (by rwa [x1]) (by rwa [x1]) hpX (fun k => n.modeErr_nonneg hδ hδ1 he hbn hX0 m hn.1 k) v1⟩
  | merge op n0 n1 ih0 ih1 =>
    obtain ⟨f0, f1, h0, h1, h2⟩ := hg
    obtain ⟨x0, v0⟩ := ih0 hn.1 h0
    obtain ⟨x1, v1⟩ := ih1 hn.2 h1
    obtain ⟨q1, q2⟩ := MergeOp.RoundedMode.near hδ hδ1 h he h2 (x1.trans x0.symm) (by rwa [x0]) (by rwa [x0]) hpX
      (fun k => n0.modeErr_nonneg hδ hδ1 he hbn hX0 m hn.1 k) (fun k => n1.modeErr_nonneg hδ hδ1 he hbn hX0 m hn.2 k) v0 v1
    exact ⟨q1.trans x0, q2⟩

end

end Decomon
