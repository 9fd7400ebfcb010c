import Verif.Lemmas.FloatCrown
import Verif.Props.FloatBack
import Verif.Props.FloatMode

/-!
C154: the methods `crown-forward-*` in rounded arithmetic, and the score of `get_adv_box` for every crown method.
-/

namespace Decomon

section
variable {ι κ κ' ν α : Type} [Fintype ι] [DecidableEq ι] [Field α] [LinearOrder α] [IsStrictOrderedRing α] {rd : α → α} {δ : α}

omit [DecidableEq ι] in
theorem out_range (m : Mode) (s M : α) : (ModeErr.mk ((1 + δ) ^ (Fintype.card ι + 2) * M) (s + ((1 + δ) ^ (Fintype.card ι + 2) - 1) * M) M s).readSlack m δ
    (Fintype.card ι) = s + ((1 + δ) ^ (Fintype.card ι + 2) - 1) * M := by
  cases m <;> simp [ModeErr.readSlack]

omit [DecidableEq ι] in
theorem out_score (m : Mode) (s M s' M' : α) : (ModeErr.mk ((1 + δ) ^ (Fintype.card ι + 2) * M) (s + ((1 + δ) ^ (Fintype.card ι + 2) - 1) * M) M s).score m δ
    (Fintype.card ι) (ModeErr.mk ((1 + δ) ^ (Fintype.card ι + 2) * M') (s' + ((1 + δ) ^ (Fintype.card ι + 2) - 1) * M') M' s') =
    s + s' + ((1 + δ) ^ (Fintype.card ι + 3) - 1) * (M + M') := by
  have e : s + ((1 + δ) ^ (Fintype.card ι + 2) - 1) * M + (s' + ((1 + δ) ^ (Fintype.card ι + 2) - 1) * M') +
      δ * ((1 + δ) ^ (Fintype.card ι + 2) * M + (1 + δ) ^ (Fintype.card ι + 2) * M') = s + s' + ((1 + δ) ^ (Fintype.card ι + 3) - 1) * (M + M') := by
    rw [pow_succ (1 + δ) (Fintype.card ι + 2)]; ring
  cases m <;> simp only [ModeErr.score, e, max_self]

/-- C154: the range that `get_range_box` returns for a crown-forward clone, computed in rounded arithmetic, encloses the outputs up to a slack known from the
weights, the precision and the box before anything is computed. -/
theorem C154_range (hδ : 0 ≤ δ) (hδ1 : δ < 1) (h : RelError rd δ) (m : Mode) (eps : α) (he : 0 < eps) (sl : Slope) (bn : α) (hbn : 0 ≤ bn) (b : BoxOf ι α)
    (n : Net α ι κ) (hc : n.Chain) (hn : n.WF) (g : Full (BoxOf ι α) ι κ α) (hg : n.FwdCrownRounded rd m eps sl bn b g) (k : κ) (U L : α)
    (hr : RangeMode rd m b g k U L) (p : ι → α) (hp : p ∈ Box b.1 b.2) :
    L - (n.crownFwdFloat m δ eps bn (boxPeak b)).range δ (Fintype.card ι) k ≤ n.eval p k ∧
      n.eval p k ≤ U + (n.crownFwdFloat m δ eps bn (boxPeak b)).range δ (Fintype.card ι) k := by
  obtain ⟨f, h1, h2⟩ := hg
  obtain ⟨a1, a2⟩ := (Net.RoundedFwdCrown.near hδ hδ1 h he hbn hp n hc hn).1 f h1
  have := (h2.near hδ h hp a1 a2).range hδ h hp hr
  rwa [out_range] at this

/-- C154: the same for the combinations `y · C` of the outputs, with `back_bounds = [C]`. -/
theorem C154_back_bounds [Fintype κ] (hδ : 0 ≤ δ) (hδ1 : δ < 1) (h : RelError rd δ) (m : Mode) (eps : α) (he : 0 < eps) (sl : Slope) (bn : α) (hbn : 0 ≤ bn)
    (b : BoxOf ι α) (n : Net α ι κ) (hc : n.Chain) (hn : n.WF) (C : κ → ν → α) (g : Full (BoxOf ι α) ι ν α) (hg : n.FwdCrownBackRounded rd m eps sl bn b C g)
    (j : ν) (U L : α) (hr : RangeMode rd m b g j U L) (p : ι → α) (hp : p ∈ Box b.1 b.2) :
    L - (n.crownFwdFloat m δ eps bn (boxPeak b)).rangeBack δ (Fintype.card ι) (fun k => C k j) ≤ ∑ k, C k j * n.eval p k ∧
      ∑ k, C k j * n.eval p k ≤ U + (n.crownFwdFloat m δ eps bn (boxPeak b)).rangeBack δ (Fintype.card ι) (fun k => C k j) := by
  obtain ⟨f, h1, h2⟩ := hg
  have near : (⟨C, fun _ => 0, C, fun _ => 0⟩ : Back κ ν α).Near (n.eval p) (fun j => ∑ k, C k j * n.eval p k) (fun _ => 0) := fun j => by
    simp [affEval]
  obtain ⟨a1, a2⟩ := (Net.RoundedFwdCrown.near hδ hδ1 h he hbn hp n hc hn).2 ν _ _ _
    (fun j => ∑ k, |C k j| * (n.crownFwdFloat m δ eps bn (boxPeak b)).size k) (fun k j => |C k j|) (fun _ _ => abs_nonneg _) (fun _ _ => ⟨le_rfl, le_rfl⟩) near
    (fun j => by simp [Back.sizeB]) f h1
  have := (h2.near hδ h hp a1 a2).range hδ h hp hr
  rw [out_range] at this
  simpa only [CrownFloat.rangeBack, zero_add] using this

/-- C154: the score that `get_adv_box` returns for a crown-forward clone bounds the difference between every target output and the source output. -/
theorem C154_score (hδ : 0 ≤ δ) (hδ1 : δ < 1) (h : RelError rd δ) (m : Mode) (eps : α) (he : 0 < eps) (sl : Slope) (bn : α) (hbn : 0 ≤ bn) (b : BoxOf ι α)
    (n : Net α ι κ) (hc : n.Chain) (hn : n.WF) (g : Full (BoxOf ι α) ι κ α) (hg : n.FwdCrownRounded rd m eps sl bn b g) (T : Set κ) (c : κ) (R : α)
    (hR : AdvMode rd m b g T c R) (p : ι → α) (hp : p ∈ Box b.1 b.2) (j : κ) (hj : j ∈ T) :
    n.eval p j - n.eval p c ≤ R + (n.crownFwdFloat m δ eps bn (boxPeak b)).score δ (Fintype.card ι) j c := by
  obtain ⟨f, h1, h2⟩ := hg
  obtain ⟨a1, a2⟩ := (Net.RoundedFwdCrown.near hδ hδ1 h he hbn hp n hc hn).1 f h1
  have := (h2.near hδ h hp a1 a2).score hδ h hp hR hj
  rwa [out_score] at this

/-- C154: the same for the default method `crown`, which computes in mode ibp. -/
theorem C154_crown_score (hδ : 0 ≤ δ) (hδ1 : δ < 1) (h : RelError rd δ) (eps : α) (he : 0 < eps) (sl : Slope) (bn : α) (hbn : 0 ≤ bn) (b : BoxOf ι α)
    (n : Net α ι κ) (hc : n.Chain) (hn : n.WF) (g : Full (BoxOf ι α) ι κ α) (hg : n.CrownRounded rd eps sl bn b g.uc g.lc) (T : Set κ) (c : κ) (R : α)
    (hR : AdvMode rd .ibp b g T c R) (p : ι → α) (hp : p ∈ Box b.1 b.2) (j : κ) (hj : j ∈ T) :
    n.eval p j - n.eval p c ≤ R + (n.crownFloat δ eps bn (boxPeak b)).score δ (Fintype.card ι) j c := by
  obtain ⟨f, h1, h2⟩ := hg
  obtain ⟨a1, a2⟩ := (Net.RoundedCrown.near hδ hδ1 h he hbn (peak_le b) hp (peak_point b hp) n hc hn).1 f h1
  have out : BackOut rd .ibp b f g := ⟨fun _ => h2, fun ha => absurd ha (by simp [getAffine])⟩
  have := (out.near hδ h hp a1 a2).score hδ h hp hR hj
  rwa [out_score] at this

/-- C154: a class is certified against another by the ranges, for the outputs that Keras computes in the same arithmetic. -/
theorem C154_range_certificate (hδ : 0 ≤ δ) (hδ1 : δ < 1) (h : RelError rd δ) (m : Mode) (eps : α) (he : 0 < eps) (sl : Slope) (bn : α) (hbn : 0 ≤ bn)
    (bk : α → α → α → α → α → α) (hb0 : ∀ g b m s x, 0 ≤ bk g b m s x) (hbk : ∀ g b m s x y, 0 ≤ x → x ≤ y → bk g b m s x ≤ bk g b m s y)
    (σ : α) (hσ : 0 < σ) (b : BoxOf ι α) (n : Net α ι κ) (hch : n.Chain) (hn : n.WF) (hsd : n.SdAbove σ) (g : Full (BoxOf ι α) ι κ α)
    (hg : n.FwdCrownRounded rd m eps sl bn b g) (c j : κ) (U L U' L' : α) (hr : RangeMode rd m b g j U L) (hr' : RangeMode rd m b g c U' L')
    (hc : U + ((n.crownFwdFloat m δ eps bn (boxPeak b)).range δ (Fintype.card ι) j + n.slackWith (roundError δ bk) σ (boxPeak b) (fun _ => 0) j) <
      L' - ((n.crownFwdFloat m δ eps bn (boxPeak b)).range δ (Fintype.card ι) c + n.slackWith (roundError δ bk) σ (boxPeak b) (fun _ => 0) c))
    (p : ι → α) (hp : p ∈ Box b.1 b.2) (v : κ → α) (hv : n.RoundedCall rd bk p v) : v j < v c := by
  have a1 := (C154_range hδ hδ1 h m eps he sl bn hbn b n hch hn g hg j U L hr p hp).2
  have a2 := (C154_range hδ hδ1 h m eps he sl bn hbn b n hch hn g hg c U' L' hr' p hp).1
  have b1 := abs_le.1 (C151_call hδ h bk hb0 hbk σ hσ n hn hsd (boxPeak b) p (peak_point b hp) v hv j)
  have b2 := abs_le.1 (C151_call hδ h bk hb0 hbk σ hσ n hn hsd (boxPeak b) p (peak_point b hp) v hv c)
  linarith [b1.2, b2.1]

/-- C154: a certificate of `get_adv_box` for the outputs that Keras computes. -/
theorem C154_adv_certificate (hδ : 0 ≤ δ) (hδ1 : δ < 1) (h : RelError rd δ) (m : Mode) (eps : α) (he : 0 < eps) (sl : Slope) (bn : α) (hbn : 0 ≤ bn)
    (bk : α → α → α → α → α → α) (hb0 : ∀ g b m s x, 0 ≤ bk g b m s x) (hbk : ∀ g b m s x y, 0 ≤ x → x ≤ y → bk g b m s x ≤ bk g b m s y)
    (σ : α) (hσ : 0 < σ) (b : BoxOf ι α) (n : Net α ι κ) (hch : n.Chain) (hn : n.WF) (hsd : n.SdAbove σ) (g : Full (BoxOf ι α) ι κ α)
    (hg : n.FwdCrownRounded rd m eps sl bn b g) (T : Set κ) (c : κ) (R : α) (hR : AdvMode rd m b g T c R)
    (hc : ∀ j ∈ T, R < -((n.crownFwdFloat m δ eps bn (boxPeak b)).score δ (Fintype.card ι) j c +
      n.slackWith (roundError δ bk) σ (boxPeak b) (fun _ => 0) j + n.slackWith (roundError δ bk) σ (boxPeak b) (fun _ => 0) c))
    (p : ι → α) (hp : p ∈ Box b.1 b.2) (v : κ → α) (hv : n.RoundedCall rd bk p v) (j : κ) (hj : j ∈ T) : v j < v c := by
  have a := C154_score hδ hδ1 h m eps he sl bn hbn b n hch hn g hg T c R hR p hp j hj
  have b1 := abs_le.1 (C151_call hδ h bk hb0 hbk σ hσ n hn hsd (boxPeak b) p (peak_point b hp) v hv j)
  have b2 := abs_le.1 (C151_call hδ h bk hb0 hbk σ hσ n hn hsd (boxPeak b) p (peak_point b hp) v hv c)
  linarith [b1.2, b2.1, hc j hj]

/-- C154: the same for the default method `crown`. -/
theorem C154_crown_certificate (hδ : 0 ≤ δ) (hδ1 : δ < 1) (h : RelError rd δ) (eps : α) (he : 0 < eps) (sl : Slope) (bn : α) (hbn : 0 ≤ bn)
    (bk : α → α → α → α → α → α) (hb0 : ∀ g b m s x, 0 ≤ bk g b m s x) (hbk : ∀ g b m s x y, 0 ≤ x → x ≤ y → bk g b m s x ≤ bk g b m s y)
    (σ : α) (hσ : 0 < σ) (b : BoxOf ι α) (n : Net α ι κ) (hch : n.Chain) (hn : n.WF) (hsd : n.SdAbove σ) (g : Full (BoxOf ι α) ι κ α)
    (hg : n.CrownRounded rd eps sl bn b g.uc g.lc) (T : Set κ) (c : κ) (R : α) (hR : AdvMode rd .ibp b g T c R)
    (hc : ∀ j ∈ T, R < -((n.crownFloat δ eps bn (boxPeak b)).score δ (Fintype.card ι) j c +
      n.slackWith (roundError δ bk) σ (boxPeak b) (fun _ => 0) j + n.slackWith (roundError δ bk) σ (boxPeak b) (fun _ => 0) c))
    (p : ι → α) (hp : p ∈ Box b.1 b.2) (v : κ → α) (hv : n.RoundedCall rd bk p v) (j : κ) (hj : j ∈ T) : v j < v c := by
  have a := C154_crown_score hδ hδ1 h eps he sl bn hbn b n hch hn g hg T c R hR p hp j hj
  have b1 := abs_le.1 (C151_call hδ h bk hb0 hbk σ hσ n hn hsd (boxPeak b) p (peak_point b hp) v hv j)
  have b2 := abs_le.1 (C151_call hδ h bk hb0 hbk σ hσ n hn hsd (boxPeak b) p (peak_point b hp) v hv c)
  linarith [b1.2, b2.1, hc j hj]

/-- C154: a certificate with `back_bounds = [C]`: the combination of the outputs that Keras computes is negative. -/
theorem C154_back_certificate [Fintype κ] (hδ : 0 ≤ δ) (hδ1 : δ < 1) (h : RelError rd δ) (m : Mode) (eps : α) (he : 0 < eps) (sl : Slope) (bn : α) (hbn : 0 ≤ bn)
    (bk : α → α → α → α → α → α) (hb0 : ∀ g b m s x, 0 ≤ bk g b m s x) (hbk : ∀ g b m s x y, 0 ≤ x → x ≤ y → bk g b m s x ≤ bk g b m s y)
    (σ : α) (hσ : 0 < σ) (b : BoxOf ι α) (n : Net α ι κ) (hch : n.Chain) (hn : n.WF) (hsd : n.SdAbove σ) (C : κ → ν → α) (g : Full (BoxOf ι α) ι ν α)
    (hg : n.FwdCrownBackRounded rd m eps sl bn b C g) (j : ν) (U L : α) (hr : RangeMode rd m b g j U L)
    (hc : U < -((n.crownFwdFloat m δ eps bn (boxPeak b)).rangeBack δ (Fintype.card ι) (fun k => C k j) +
      ∑ k, |C k j| * n.slackWith (roundError δ bk) σ (boxPeak b) (fun _ => 0) k))
    (p : ι → α) (hp : p ∈ Box b.1 b.2) (v : κ → α) (hv : n.RoundedCall rd bk p v) : ∑ k, C k j * v k < 0 := by
  have a := (C154_back_bounds hδ hδ1 h m eps he sl bn hbn b n hch hn C g hg j U L hr p hp).2
  have d : ∑ k, C k j * v k ≤ (∑ k, C k j * n.eval p k) + ∑ k, |C k j| * n.slackWith (roundError δ bk) σ (boxPeak b) (fun _ => 0) k := by
    rw [← Finset.sum_add_distrib]
    refine Finset.sum_le_sum fun k _ => ?_
    have q := mul_le_mul_of_nonneg_left (C151_call hδ h bk hb0 hbk σ hσ n hn hsd (boxPeak b) p (peak_point b hp) v hv k) (abs_nonneg (C k j))
    rw [← abs_mul] at q
    have := (abs_le.1 q).2
    linarith [mul_sub (C k j) (v k) (n.eval p k)]
  linarith

theorem exists_fuse (rd : α → α) (m : Mode) (b : Back ι ν α) : ∃ g, FuseRounded rd m b g := by
  cases m with
  | ibp => exact ⟨b, rfl⟩
  | affine => exact exists_merge rd _ b
  | hybrid => exact exists_merge rd _ b

theorem exists_out (rd : α → α) (m : Mode) (x : BoxOf ι α) (b : Back ι κ α) : ∃ g, BackOut rd m x b g := by
  obtain ⟨u, l, h⟩ := exists_const rd x b
  exact ⟨⟨x, u, b.wu, b.bu, l, b.wl, b.bl, fun _ => 0, fun _ => 0⟩, fun _ => h, fun _ => ⟨rfl, rfl, rfl, rfl⟩⟩

/-- C154: in every arithmetic the conversion returns such bounds. -/
theorem C154_exists (rd : α → α) (m : Mode) (eps : α) (sl : Slope) (bn : α) (hbn : 0 ≤ bn) (x : BoxOf ι α) (n : Net α ι κ) (hn : n.WF) (hf : n.Plain)
    (hm : n.NoMultiply) (hp : n.PlainBack) :
    (∃ g, n.FwdCrownRounded rd m eps sl bn x g) ∧ ∀ (ν : Type) (C : κ → ν → α), ∃ g, n.FwdCrownBackRounded rd m eps sl bn x C g := by
  have key : (∃ b, (n.RoundedFwdCrown rd m eps sl bn x).1 b) ∧ ∀ (ν : Type) (b : Back κ ν α), ∃ b', (n.RoundedFwdCrown rd m eps sl bn x).2 ν b b' := by
    induction n with
    | input =>
      exact ⟨exists_fuse rd m _, fun ν b => (exists_merge rd _ b).elim fun b1 h1 => (exists_fuse rd m b1).elim fun g h2 => ⟨g, b1, h1, h2⟩⟩
    | merge op n0 n1 _ _ => exact hp.elim
    | @layer κ₁ κ₂ _ _ i3 n l ih =>
      obtain ⟨-, h1⟩ := ih hn.1 hf.1 hm hp.1
      obtain ⟨f, h0⟩ := C153_exists rd m eps sl bn hbn (inputTensorsBox m x.1 x.2) n hn.1 hf.1 hm
      obtain ⟨u, lo, h2⟩ := exists_tight rd m f
      have : ∃ nb, l.RoundedBack rd eps sl bn u lo nb := by
        cases l with
        | dense kernel bias => exact ⟨_, rfl⟩
        | linear L kernel bias => exact ⟨_, rfl⟩
        | relu gf gb => exact ⟨_, hp.2, rfl⟩
        | batchNorm gamma beta mean sd =>
          refine ⟨backwardBatchNorm gamma beta mean sd, fun i k => ?_, fun k => ?_⟩
          · simpa using ⟨mul_nonneg hbn (abs_nonneg _), mul_nonneg hbn (abs_nonneg _)⟩
          · have := mul_nonneg hbn (add_nonneg (mul_nonneg (div_nonneg (abs_nonneg (gamma k)) (hn.2 k).le) (abs_nonneg (mean k))) (abs_nonneg (beta k)))
            simpa using this
        | reshape e => exact ⟨_, rfl⟩
        | skip => exact ⟨_, rfl⟩
      obtain ⟨nb, h3⟩ := this
      refine ⟨(h1 κ₂ nb).elim fun g hg => ⟨g, nb, ⟨f, u, lo, h0, h2, h3⟩, hg⟩, fun ν b => ?_⟩
      obtain ⟨bm, h4⟩ := exists_merge rd nb b
      exact (h1 ν bm).elim fun g hg => ⟨g, nb, bm, ⟨f, u, lo, h0, h2, h3⟩, h4, hg⟩
  refine ⟨?_, fun ν C => ?_⟩
  · obtain ⟨b, hb⟩ := key.1
    exact (exists_out rd m x b).imp fun g h => ⟨b, hb, h⟩
  · obtain ⟨b, hb⟩ := key.2 ν ⟨C, fun _ => 0, C, fun _ => 0⟩
    exact (exists_out rd m x b).imp fun g h => ⟨b, hb, h⟩

theorem fuse_id (m : Mode) (x : BoxOf ι α) (b : Back ι ν α) : FuseRounded id m b (fuse m (inputTensorsBox m x.1 x.2) b) := by
  have e : ∀ m, getAffine m = true → (⟨(inputTensorsBox m x.1 x.2).wu, (inputTensorsBox m x.1 x.2).bu, (inputTensorsBox m x.1 x.2).wl,
      (inputTensorsBox m x.1 x.2).bl⟩ : Back ι ι α) = Back.identity := fun m hm => by
    simp only [inputTensorsBox, hm, if_true]
    rfl
  cases m with
  | ibp => rfl
  | affine =>
    have := merge_id (Back.identity (α := α)) b
    rw [← e .affine rfl] at this
    simpa only [FuseRounded, fuse, getAffine, if_true, e .affine rfl] using this
  | hybrid =>
    have := merge_id (Back.identity (α := α)) b
    rw [← e .hybrid rfl] at this
    simpa only [FuseRounded, fuse, getAffine, if_true, e .hybrid rfl] using this

theorem out_id (x : BoxOf ι α) (m : Mode) (b : Back ι κ α) : BackOut id m x b (convert2BackwardMode boxDomain Prod.mk m (inputTensorsBox m x.1 x.2) b) := by
  refine ⟨fun hi k => ?_, fun ha => ?_⟩
  · cases m with
    | ibp => exact const_id x .ibp rfl b k
    | affine => exact absurd hi (by simp [getIbp])
    | hybrid => exact ⟨(upper_id x _ _).1, (upper_id x _ _).2⟩
  · simp only [convert2BackwardMode, ha, if_true]
    exact ⟨trivial, trivial, trivial, trivial⟩

theorem Net.RoundedFwdCrown.exact (m : Mode) (eps : α) (sl : Slope) (x : BoxOf ι α) {κ : Type} (n : Net α ι κ) (hf : n.Plain) (hm : n.NoMultiply)
    (hp : n.PlainBack) :
    (∀ b, ((boxCrown m eps sl true x.1 x.2).node n).first = .ok b → (n.RoundedFwdCrown id m eps sl 0 x).1 b) ∧
      ∀ (ν : Type) (b : Back κ ν α) b', ((boxCrown m eps sl true x.1 x.2).node n).next ν b = .ok b' → (n.RoundedFwdCrown id m eps sl 0 x).2 ν b b' := by
  induction n with
  | input =>
    refine ⟨fun b hb => ?_, fun ν b b' hb => ?_⟩
    · cases hb; exact fuse_id m x _
    · cases hb; exact ⟨_, merge_id _ _, fuse_id m x _⟩
  | merge op n0 n1 _ _ => exact hp.elim
  | @layer κ₁ κ₂ _ _ i3 n l ih =>
    obtain ⟨-, i2⟩ := ih hf.1 hm hp.1
    have hch : ∀ f, (boxCrown m eps sl true x.1 x.2).childInput n ((boxCrown m eps sl true x.1 x.2).node n) = .ok f →
        ∃ (f' : Full (BoxOf ι α) ι κ₁ α) (u lo : κ₁ → α), n.RoundedMode id m eps sl 0 (inputTensorsBox m x.1 x.2) f' ∧ TightRounded id m f' u lo ∧
          l.RoundedBack id eps sl 0 u lo (l.backward boxDomain m eps sl f) := by
      intro f h
      unfold CrownCfg.childInput at h
      rw [if_pos (by simp [boxCrown])] at h
      cases h
      refine ⟨_, _, _, C153_exact m eps sl _ n hf.1 hm, tight_id m _, ?_⟩
      cases l with
      | relu gf gb =>
        refine ⟨hp.2, ?_⟩
        have g1 : gb = fun _ => 1 := funext hp.2
        simp only [hull_id, Lay.backward, backwardRelu, g1]
        rfl
      | batchNorm gamma beta mean sd => exact ⟨fun i k => by simp [Lay.backward], fun k => by simp [Lay.backward]⟩
      | _ => rfl
    constructor
    · intro b h
      simp only [CrownCfg.node] at h
      cases hf' : (boxCrown m eps sl true x.1 x.2).childInput n ((boxCrown m eps sl true x.1 x.2).node n) with
      | error e => rw [hf'] at h; cases h
      | ok f =>
        rw [hf'] at h
        exact ⟨_, hch f hf', i2 _ _ _ h⟩
    · intro ν b b' h
      simp only [CrownCfg.node] at h
      cases hf' : (boxCrown m eps sl true x.1 x.2).childInput n ((boxCrown m eps sl true x.1 x.2).node n) with
      | error e => rw [hf'] at h; cases h
      | ok f =>
        rw [hf'] at h
        exact ⟨_, _, hch f hf', merge_id _ _, i2 _ _ _ h⟩

/-- C154: in exact arithmetic the bounds of the clone are among them. -/
theorem C154_exact (m : Mode) (eps : α) (sl : Slope) (x : BoxOf ι α) (n : Net α ι κ) (hf : n.Plain) (hm : n.NoMultiply) (hp : n.PlainBack)
    (f : Full (BoxOf ι α) ι κ α) (h : (boxCrown m eps sl true x.1 x.2).model n = .ok f) : n.FwdCrownRounded id m eps sl 0 x f := by
  unfold CrownCfg.model at h
  cases hb : ((boxCrown m eps sl true x.1 x.2).node n).first with
  | error e => rw [hb] at h; cases h
  | ok b =>
    rw [hb] at h
    cases h
    exact ⟨b, (Net.RoundedFwdCrown.exact m eps sl x n hf hm hp).1 b hb, out_id x m b⟩

/-- C154: the same with `back_bounds`. -/
theorem C154_exact_back (m : Mode) (eps : α) (sl : Slope) (x : BoxOf ι α) (n : Net α ι κ) (hf : n.Plain) (hm : n.NoMultiply) (hp : n.PlainBack) (C : κ → ν → α)
    (f : Full (BoxOf ι α) ι ν α) (h : (boxCrown m eps sl true x.1 x.2).modelBack n C = .ok f) : n.FwdCrownBackRounded id m eps sl 0 x C f := by
  unfold CrownCfg.modelBack at h
  cases hb : ((boxCrown m eps sl true x.1 x.2).node n).next ν ⟨C, fun _ => 0, C, fun _ => 0⟩ with
  | error e => rw [hb] at h; cases h
  | ok b =>
    rw [hb] at h
    cases h
    exact ⟨b, (Net.RoundedFwdCrown.exact m eps sl x n hf hm hp).2 ν _ b hb, out_id x m b⟩

omit [DecidableEq ι] in
/-- C154: in exact arithmetic the slack is at most the one of C105. -/
theorem C154_zero (m : Mode) (eps : α) (he : 0 < eps) (X : ι → α) (n : Net α ι κ) (hc : n.Chain) (hn : n.WF) (hm : n.NoMultiply) (k : κ) :
    (n.crownFwdFloat m 0 eps 0 X).range 0 (Fintype.card ι) k ≤ eps * n.gain k := by
  have key : (∀ k, (n.crownFwdFloat m 0 eps 0 X).slack k ≤ eps * n.gain k) ∧
      ∀ [Fintype κ] (B : κ → α) (M : α), (∀ k, 0 ≤ B k) → (n.crownFwdFloat m 0 eps 0 X).next B M ≤ eps * ∑ k, B k * n.gain k := by
    clear k
    induction n with
    | input =>
      have t : (if m = .ibp then (1 : α) else (1 + 0) ^ (Fintype.card ι + 2)) = 1 := by split <;> simp
      exact ⟨fun k => by simp [Net.crownFwdFloat, Net.gain], fun B M _ => by simp [Net.crownFwdFloat, Net.gain]⟩
    | merge op n0 n1 _ _ => exact absurd hc (by simp [Net.Chain])
    | @layer κ₁ κ₂ _ _ i3 n l ih =>
      obtain ⟨h1, h2⟩ := ih hc hn.1 hm
      have hr : ∀ k, (n.modeErr m 0 eps 0 X k).readSlack m 0 (Fintype.card ι) ≤ eps * n.gain k := fun k => by
        rw [C153_zero m eps he X n hn.1 hm k]
        split
        · exact mul_nonneg he.le (n.gain_nonneg hn.1 k)
        · exact le_rfl
      have own : ∀ k, l.ownFloat 0 eps 0 (n.crownFwdFloat m 0 eps 0 X).size (fun k => (n.modeErr m 0 eps 0 X k).readSize m 0 (Fintype.card ι))
          (fun k => (n.modeErr m 0 eps 0 X k).readSlack m 0 (Fintype.card ι)) k ≤ eps * l.ownErr n.gain k := fun k => by
        cases l with
        | relu gf gb =>
          simp only [Lay.ownFloat, Lay.ownErr]
          simp only [add_zero, one_pow, sub_zero, div_one, sub_self, zero_mul]
          linarith [hr k]
        | _ => simp [Lay.ownFloat, Lay.ownErr]
      have w : l.weightFloat (0 : α) 0 = l.absW := by
        rw [← l.absWeight_eq]
        cases l <;> simp [Lay.weightFloat, Lay.absWeight]
      have w0 : ∀ i k, 0 ≤ l.absW i k := fun i k => by
        rw [← w]; exact l.weightFloat_nonneg le_rfl one_pos le_rfl hn.2 i k
      constructor
      · intro k
        have a := h2 (fun i => l.absW i k) (l.sizeFloat 0 0 (n.crownFwdFloat m 0 eps 0 X).size
          (fun k => (n.modeErr m 0 eps 0 X k).readSize m 0 (Fintype.card ι)) k) (fun i => w0 i k)
        have s := l.gain_split n.gain k
        simp only [Net.crownFwdFloat, w, Net.gain]
        rw [← s, mul_add]
        exact add_le_add (own k) a
      · intro inst B M hB
        obtain rfl : i3 = inst := Subsingleton.elim _ _
        have a := h2 (fun i => (1 + 0) ^ (Fintype.card κ₂ + 2) * ∑ k, l.absW i k * B k) ((1 + 0) ^ (Fintype.card κ₂ + 2) * M)
          (fun i => by simpa using Finset.sum_nonneg fun k _ => mul_nonneg (w0 i k) (hB k))
        have b := Finset.sum_le_sum fun k (_ : k ∈ Finset.univ) => mul_le_mul_of_nonneg_left (own k) (hB k)
        simp only [Net.crownFwdFloat, w]
        have e : ∑ k, B k * (Net.layer n l).gain k = (∑ k, B k * l.ownErr n.gain k) + ∑ i, (∑ q, l.absW i q * B q) * n.gain i := by
          have : ∑ i, (∑ q, l.absW i q * B q) * n.gain i = ∑ q, B q * ∑ i, l.absW i q * n.gain i := by
            simp only [Finset.sum_mul, Finset.mul_sum]
            rw [Finset.sum_comm]
            exact Finset.sum_congr rfl fun q _ => Finset.sum_congr rfl fun i _ => by ring
          rw [this, ← Finset.sum_add_distrib]
          refine Finset.sum_congr rfl fun q _ => ?_
          rw [← mul_add, l.gain_split]
          rfl
        have e2 : ∑ k, B k * (eps * l.ownErr n.gain k) = eps * ∑ k, B k * l.ownErr n.gain k := by
          rw [Finset.mul_sum]; exact Finset.sum_congr rfl fun k _ => by ring
        rw [e, mul_add, ← e2]
        refine add_le_add ?_ ?_
        · simpa using b
        · simpa using a
  have := key.1 k
  simpa [CrownFloat.range] using this

end

/-- C154: two classes in float32 on the box `[0, 1/2]²`, any crown-forward method: the ranges miss the exact outputs by at most `1e-4`. -/
example (m : Mode) (sl : Slope) (g : Full (BoxOf (Fin 2) ℚ) (Fin 2) (Fin 2) ℚ)
    (hg : twoClassNet.FwdCrownRounded (roundNearest 24) m (1 / 10000000) sl 0 (fun _ => 0, fun _ => 1 / 2) g) (k : Fin 2) (U L : ℚ)
    (hr : RangeMode (roundNearest 24) m (fun _ => 0, fun _ => 1 / 2) g k U L) (p : Fin 2 → ℚ) (hp : p ∈ Box (fun _ => 0) fun _ => (1 / 2 : ℚ)) :
    L - 1 / 10000 ≤ twoClassNet.eval p k ∧ twoClassNet.eval p k ≤ U + 1 / 10000 := by
  have a := C154_range (δ := (1 / 2) ^ 24) (by norm_num) (by norm_num) (C118_float_error 24) m (1 / 10000000) (by norm_num) sl 0 le_rfl
    (fun _ => 0, fun _ => 1 / 2) twoClassNet (by simp [twoClassNet, Net.Chain]) (by simp [twoClassNet, Net.WF, Lay.WF]) g hg k U L hr p hp
  have e : (twoClassNet.crownFwdFloat m ((1 / 2) ^ 24) (1 / 10000000) 0 (boxPeak (ι := Fin 2) (fun _ => 0, fun _ => 1 / 2))).range ((1 / 2) ^ 24)
      (Fintype.card (Fin 2)) k ≤ 1 / 10000 := by
    clear a hr hg
    revert k
    cases m <;> decide +kernel
  constructor <;> linarith [a.1, a.2]

/-- C154: a score of `get_adv_box` below `-1e-4` certifies the order of the outputs that Keras computes in float32. -/
example (m : Mode) (sl : Slope) (g : Full (BoxOf (Fin 2) ℚ) (Fin 2) (Fin 2) ℚ)
    (hg : twoClassNet.FwdCrownRounded (roundNearest 24) m (1 / 10000000) sl 0 (fun _ => 0, fun _ => 1 / 2) g) (R : ℚ)
    (hR : AdvMode (roundNearest 24) m (fun _ => 0, fun _ => 1 / 2) g {1} 0 R) (hc : R < -(1 / 10000)) (p : Fin 2 → ℚ)
    (hp : p ∈ Box (fun _ => 0) fun _ => (1 / 2 : ℚ)) (v : Fin 2 → ℚ) (hv : twoClassNet.RoundedCall (roundNearest 24) (fun _ _ _ _ _ => 0) p v) :
    v 1 < v 0 := by
  refine C154_adv_certificate (δ := (1 / 2) ^ 24) (by norm_num) (by norm_num) (C118_float_error 24) m (1 / 10000000) (by norm_num) sl 0 le_rfl
    (fun _ _ _ _ _ => 0) (fun _ _ _ _ _ => le_rfl) (fun _ _ _ _ _ _ _ _ => le_rfl) 1 one_pos (fun _ => 0, fun _ => 1 / 2) twoClassNet
    (by simp [twoClassNet, Net.Chain]) (by simp [twoClassNet, Net.WF, Lay.WF]) (by simp [twoClassNet, Net.SdAbove, Lay.SdAbove]) g hg {1} 0 R hR ?_ p hp v hv 1
    rfl
  rintro j rfl
  refine lt_of_lt_of_le hc ?_
  clear hR hg hv hp hc
  cases m <;> decide +kernel

/-- C154: and so does a bound on the combination `y₁ - y₀`. -/
example (m : Mode) (sl : Slope) (g : Full (BoxOf (Fin 2) ℚ) (Fin 2) Unit ℚ)
    (hg : twoClassNet.FwdCrownBackRounded (roundNearest 24) m (1 / 10000000) sl 0 (fun _ => 0, fun _ => 1 / 2) (fun k _ => if k = 1 then 1 else -1) g) (U L : ℚ)
    (hr : RangeMode (roundNearest 24) m (fun _ => 0, fun _ => 1 / 2) g () U L) (hc : U < -(1 / 10000)) (p : Fin 2 → ℚ)
    (hp : p ∈ Box (fun _ => 0) fun _ => (1 / 2 : ℚ)) (v : Fin 2 → ℚ) (hv : twoClassNet.RoundedCall (roundNearest 24) (fun _ _ _ _ _ => 0) p v) :
    v 1 < v 0 := by
  have := C154_back_certificate (δ := (1 / 2) ^ 24) (by norm_num) (by norm_num) (C118_float_error 24) m (1 / 10000000) (by norm_num) sl 0 le_rfl
    (fun _ _ _ _ _ => 0) (fun _ _ _ _ _ => le_rfl) (fun _ _ _ _ _ _ _ _ => le_rfl) 1 one_pos (fun _ => 0, fun _ => 1 / 2) twoClassNet
    (by simp [twoClassNet, Net.Chain]) (by simp [twoClassNet, Net.WF, Lay.WF]) (by simp [twoClassNet, Net.SdAbove, Lay.SdAbove]) _ g hg () U L hr
    (lt_of_lt_of_le hc (by clear hr hg hv hp hc; cases m <;> decide +kernel)) p hp v hv
  simp [Fin.sum_univ_two] at this
  linarith

/-- C154: there are such bounds in every arithmetic and every mode. -/
example (m : Mode) (sl : Slope) : ∃ g, twoClassNet.FwdCrownRounded (roundNearest 24) m (1 / 10000000) sl 0 (fun _ => 0, fun _ => 1 / 2) g :=
  (C154_exists _ m _ sl 0 le_rfl _ twoClassNet (by simp [twoClassNet, Net.WF, Lay.WF]) (by simp [twoClassNet, Net.Plain]) (by simp [twoClassNet, Net.NoMultiply])
    (by simp [twoClassNet, Net.PlainBack])).1

/-- C154: in exact arithmetic the clone of crown-forward-hybrid returns the bound `-2` for this combination, below the threshold of the certificate. -/
example : ∃ f, (boxCrown .hybrid (1 / 10000000 : ℚ) .vSlope true (fun _ => 0) fun _ => 1 / 2).modelBack twoClassNet ![fun _ => (-1 : ℚ), fun _ => 1] = .ok f ∧
    f.uc (0 : Fin 1) = -2 ∧
    twoClassNet.FwdCrownBackRounded id .hybrid (1 / 10000000) .vSlope 0 (fun _ => 0, fun _ => 1 / 2) ![fun _ => (-1 : ℚ), fun _ => 1] f := by
  refine ⟨_, rfl, by decide +kernel, ?_⟩
  exact C154_exact_back .hybrid (1 / 10000000) .vSlope (fun _ => 0, fun _ => 1 / 2) twoClassNet (by simp [twoClassNet, Net.Plain])
    (by simp [twoClassNet, Net.NoMultiply]) (by simp [twoClassNet, Net.PlainBack]) ![fun _ => (-1 : ℚ), fun _ => 1] _ rfl

end Decomon
