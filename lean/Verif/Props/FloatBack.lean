import Verif.Lemmas.FloatBack
import Verif.Props.FloatAffine
import Verif.Props.RunsBack

/-!
C152: the method `crown` in rounded arithmetic, from the layers to the certificates.
-/

namespace Decomon

section
variable {ι κ κ' ν α : Type} [Fintype ι] [DecidableEq ι] [Field α] [LinearOrder α] [IsStrictOrderedRing α] {rd : α → α} {δ : α}

/-- C152: the bounds that a crown clone computes in rounded arithmetic enclose the outputs up to a slack known from the weights, the precision and the box
before anything is computed. -/
theorem C152_range (hδ : 0 ≤ δ) (hδ1 : δ < 1) (h : RelError rd δ) (eps : α) (he : 0 < eps) (sl : Slope) (bn : α) (hbn : 0 ≤ bn) (b : BoxOf ι α)
    (n : Net α ι κ) (hc : n.Chain) (hn : n.WF) (U L : κ → α) (hr : n.CrownRounded rd eps sl bn b U L) (p : ι → α) (hp : p ∈ Box b.1 b.2) (k : κ) :
    L k - (n.crownFloat δ eps bn (boxPeak b)).range δ (Fintype.card ι) k ≤ n.eval p k ∧
      n.eval p k ≤ U k + (n.crownFloat δ eps bn (boxPeak b)).range δ (Fintype.card ι) k := by
  obtain ⟨f, h1, h2⟩ := hr
  obtain ⟨a1, a2⟩ := (Net.RoundedCrown.near hδ hδ1 h he hbn (peak_le b) hp (peak_point b hp) n hc hn).1 f h1
  exact (h2.range hδ h (peak_le b) hp a1 a2 k).1

/-- C152: the same for the combinations `y · C` of the outputs, with `back_bounds = [C]`. -/
theorem C152_back_bounds [Fintype κ] (hδ : 0 ≤ δ) (hδ1 : δ < 1) (h : RelError rd δ) (eps : α) (he : 0 < eps) (sl : Slope) (bn : α) (hbn : 0 ≤ bn)
    (b : BoxOf ι α) (n : Net α ι κ) (hc : n.Chain) (hn : n.WF) (C : κ → ν → α) (U L : ν → α) (hr : n.CrownBackRounded rd eps sl bn b C U L) (p : ι → α)
    (hp : p ∈ Box b.1 b.2) (j : ν) :
    L j - (n.crownFloat δ eps bn (boxPeak b)).rangeBack δ (Fintype.card ι) (fun k => C k j) ≤ ∑ k, C k j * n.eval p k ∧
      ∑ k, C k j * n.eval p k ≤ U j + (n.crownFloat δ eps bn (boxPeak b)).rangeBack δ (Fintype.card ι) (fun k => C k j) := by
  obtain ⟨f, h1, h2⟩ := hr
  have near : (⟨C, fun _ => 0, C, fun _ => 0⟩ : Back κ ν α).Near (n.eval p) (fun j => ∑ k, C k j * n.eval p k) (fun _ => 0) := fun j => by
    simp [affEval]
  obtain ⟨a1, a2⟩ := (Net.RoundedCrown.near hδ hδ1 h he hbn (peak_le b) hp (peak_point b hp) n hc hn).2 ν _ _ _
    (fun j => ∑ k, |C k j| * (n.crownFloat δ eps bn (boxPeak b)).size k) (fun k j => |C k j|) (fun _ _ => abs_nonneg _) (fun _ _ => ⟨le_rfl, le_rfl⟩) near
    (fun j => by simp [Back.sizeB]) f h1
  have := (h2.range hδ h (peak_le b) hp a1 a2 j).1
  simpa only [CrownFloat.rangeBack, zero_add] using this

/-- C152: a class is certified against another by the ranges: for every input in the box, however Keras sums, the computed outputs are in this order. -/
theorem C152_range_certificate (hδ : 0 ≤ δ) (hδ1 : δ < 1) (h : RelError rd δ) (eps : α) (he : 0 < eps) (sl : Slope) (bn : α) (hbn : 0 ≤ bn)
    (bk : α → α → α → α → α → α) (hb0 : ∀ g b m s x, 0 ≤ bk g b m s x) (hbk : ∀ g b m s x y, 0 ≤ x → x ≤ y → bk g b m s x ≤ bk g b m s y)
    (σ : α) (hσ : 0 < σ) (b : BoxOf ι α) (n : Net α ι κ) (hch : n.Chain) (hn : n.WF) (hsd : n.SdAbove σ) (U L : κ → α)
    (hr : n.CrownRounded rd eps sl bn b U L) (c j : κ)
    (hc : U j + ((n.crownFloat δ eps bn (boxPeak b)).range δ (Fintype.card ι) j + n.slackWith (roundError δ bk) σ (boxPeak b) (fun _ => 0) j) <
      L c - ((n.crownFloat δ eps bn (boxPeak b)).range δ (Fintype.card ι) c + n.slackWith (roundError δ bk) σ (boxPeak b) (fun _ => 0) c))
    (p : ι → α) (hp : p ∈ Box b.1 b.2) (v : κ → α) (hv : n.RoundedCall rd bk p v) : v j < v c := by
  have a1 := (C152_range hδ hδ1 h eps he sl bn hbn b n hch hn U L hr p hp j).2
  have a2 := (C152_range hδ hδ1 h eps he sl bn hbn b n hch hn U L hr p hp c).1
  have b1 := abs_le.1 (C151_call hδ h bk hb0 hbk σ hσ n hn hsd (boxPeak b) p (peak_point b hp) v hv j)
  have b2 := abs_le.1 (C151_call hδ h bk hb0 hbk σ hσ n hn hsd (boxPeak b) p (peak_point b hp) v hv c)
  linarith [b1.1, b1.2, b2.1, b2.2]

/-- C152: a certificate with `back_bounds = [C]`: the combination of the computed outputs is negative. -/
theorem C152_back_certificate [Fintype κ] (hδ : 0 ≤ δ) (hδ1 : δ < 1) (h : RelError rd δ) (eps : α) (he : 0 < eps) (sl : Slope) (bn : α) (hbn : 0 ≤ bn)
    (bk : α → α → α → α → α → α) (hb0 : ∀ g b m s x, 0 ≤ bk g b m s x) (hbk : ∀ g b m s x y, 0 ≤ x → x ≤ y → bk g b m s x ≤ bk g b m s y)
    (σ : α) (hσ : 0 < σ) (b : BoxOf ι α) (n : Net α ι κ) (hch : n.Chain) (hn : n.WF) (hsd : n.SdAbove σ) (C : κ → ν → α) (U L : ν → α)
    (hr : n.CrownBackRounded rd eps sl bn b C U L) (j : ν)
    (hc : U j < -((n.crownFloat δ eps bn (boxPeak b)).rangeBack δ (Fintype.card ι) (fun k => C k j) +
      ∑ k, |C k j| * n.slackWith (roundError δ bk) σ (boxPeak b) (fun _ => 0) k))
    (p : ι → α) (hp : p ∈ Box b.1 b.2) (v : κ → α) (hv : n.RoundedCall rd bk p v) : ∑ k, C k j * v k < 0 := by
  have a := (C152_back_bounds hδ hδ1 h eps he sl bn hbn b n hch hn C U L hr p hp j).2
  have d : ∑ k, C k j * v k ≤ (∑ k, C k j * n.eval p k) + ∑ k, |C k j| * n.slackWith (roundError δ bk) σ (boxPeak b) (fun _ => 0) k := by
    rw [← Finset.sum_add_distrib]
    refine Finset.sum_le_sum fun k _ => ?_
    have q := mul_le_mul_of_nonneg_left (C151_call hδ h bk hb0 hbk σ hσ n hn hsd (boxPeak b) p (peak_point b hp) v hv k) (abs_nonneg (C k j))
    rw [← abs_mul] at q
    have := (abs_le.1 q).2
    linarith [mul_sub (C k j) (v k) (n.eval p k)]
  linarith

/-- The ReLUs of the network are without the option `finetune`. -/
def Net.PlainBack : {κ : Type} → Net α ι κ → Prop
  | _, .input => True
  | _, @Net.layer _ _ _ _ _ _ _ n l => n.PlainBack ∧ match l with
    | .relu _ gb => ∀ k, gb k = 1
    | _ => True
  | _, .merge _ _ _ => False

omit [DecidableEq ι] in
theorem exists_merge [Fintype κ] (rd : α → α) (prev : Back ι κ α) (b : Back κ ν α) : ∃ g, MergeRounded rd prev b g := by
  choose wu h1 using fun (i : ι) (n : ν) => exists_sum2 rd (fun k => prev.wu i k * max (b.wu k n) 0) (fun k => prev.wl i k * min (b.wu k n) 0) fun x y => rd (x + y)
  choose wl h2 using fun (i : ι) (n : ν) => exists_sum2 rd (fun k => prev.wl i k * max (b.wl k n) 0) (fun k => prev.wu i k * min (b.wl k n) 0) fun x y => rd (x + y)
  choose bu h3 using fun (n : ν) => exists_sum2 rd (fun k => prev.bu k * max (b.wu k n) 0) (fun k => prev.bl k * min (b.wu k n) 0) fun x y => rd (rd (x + y) + b.bu n)
  choose bl h4 using fun (n : ν) => exists_sum2 rd (fun k => prev.bl k * max (b.wl k n) 0) (fun k => prev.bu k * min (b.wl k n) 0) fun x y => rd (rd (x + y) + b.bl n)
  exact ⟨⟨wu, bu, wl, bl⟩, h1, h2, h3, h4⟩

omit [DecidableEq ι] in
theorem exists_const (rd : α → α) (x : BoxOf ι α) (b : Back ι κ α) : ∃ u l, ConstRounded rd x b u l := by
  choose u hu using fun k => (exists_upper rd x (fun i => b.wu i k) (b.bu k)).1
  choose l hl using fun k => (exists_upper rd x (fun i => b.wl i k) (b.bl k)).2
  exact ⟨u, l, fun k => ⟨hu k, hl k⟩⟩

/-- C152: in every arithmetic the conversion returns such bounds. -/
theorem C152_exists (rd : α → α) (eps : α) (sl : Slope) (bn : α) (hbn : 0 ≤ bn) (x : BoxOf ι α) (n : Net α ι κ) (hn : n.WF) (hp : n.PlainBack) :
    (∃ u l, n.CrownRounded rd eps sl bn x u l) ∧ ∀ (ν : Type) (C : κ → ν → α), ∃ u l, n.CrownBackRounded rd eps sl bn x C u l := by
  have key : (∃ b, (n.RoundedCrown rd eps sl bn x).1 b) ∧ ∀ (ν : Type) (b : Back κ ν α), ∃ b', (n.RoundedCrown rd eps sl bn x).2 ν b b' := by
    induction n with
    | input =>
      exact ⟨⟨_, rfl⟩, fun ν b => exists_merge rd _ b⟩
    | merge op n0 n1 _ _ => exact hp.elim
    | @layer κ₁ κ₂ _ _ i3 n l ih =>
      obtain ⟨⟨b0, h0⟩, h1⟩ := ih hn.1 hp.1
      obtain ⟨u, lo, h2⟩ := exists_const rd x b0
      have : ∃ nb, l.RoundedBack rd eps sl bn u lo nb := by
        cases l with
        | dense kernel bias => exact ⟨_, rfl⟩
        | linear L kernel bias => exact ⟨_, rfl⟩
        | relu gf gb => exact ⟨_, hp.2, rfl⟩
        | batchNorm gamma beta mean sd =>
          refine ⟨backwardBatchNorm gamma beta mean sd, fun i k => ?_, fun k => ?_⟩
          · simpa using ⟨mul_nonneg hbn (abs_nonneg _), mul_nonneg hbn (abs_nonneg _)⟩
          · have := mul_nonneg hbn (add_nonneg (mul_nonneg (div_nonneg (abs_nonneg (gamma k)) (hn.2 k).le) (abs_nonneg (mean k))) (abs_nonneg (beta k)))
            simpa using this
        | reshape e => exact ⟨_, rfl⟩
        | skip => exact ⟨_, rfl⟩
      obtain ⟨nb, h3⟩ := this
      refine ⟨(h1 κ₂ nb).elim fun g hg => ⟨g, nb, ⟨b0, u, lo, h0, h2, h3⟩, hg⟩, fun ν b => ?_⟩
      obtain ⟨bm, h4⟩ := exists_merge rd nb b
      exact (h1 ν bm).elim fun g hg => ⟨g, nb, bm, ⟨b0, u, lo, h0, h2, h3⟩, h4, hg⟩
  refine ⟨?_, fun ν C => ?_⟩
  · obtain ⟨b, hb⟩ := key.1
    exact (exists_const rd x b).imp fun u => .imp fun l h => ⟨b, hb, h⟩
  · obtain ⟨b, hb⟩ := key.2 ν ⟨C, fun _ => 0, C, fun _ => 0⟩
    exact (exists_const rd x b).imp fun u => .imp fun l h => ⟨b, hb, h⟩

theorem isSum_id {τ : Type} [Fintype τ] (p : τ → α) : IsSum id p (∑ t, p t) := by
  obtain ⟨v, hv⟩ := exists_isSum id p
  have := (isSum_error (δ := 0) le_rfl (fun a => by simp) p v hv).1
  simp only [add_zero, one_pow, sub_self, zero_mul, abs_nonpos_iff, sub_eq_zero] at this
  rwa [← this]

theorem hull_id (eps : α) (sl : Slope) (u l : α) : roundedHullRelu id eps sl u l = linearHullRelu eps sl 1 u l := by
  simp only [roundedHullRelu, linearHullRelu, id]
  cases sl <;> simp

theorem const_id (x : BoxOf ι α) (m : Mode) (hm : m = .ibp) (b : Back ι κ α) :
    ConstRounded id x b (convert2BackwardMode boxDomain Prod.mk m (inputTensorsBox m x.1 x.2) b).uc
      (convert2BackwardMode boxDomain Prod.mk m (inputTensorsBox m x.1 x.2) b).lc := by
  subst hm
  intro k
  exact ⟨⟨_, isSum_id _, by simp [convert2BackwardMode, inputTensorsBox, getIbp, boxDomain, getUpperBox]⟩,
    ⟨_, isSum_id _, by simp [convert2BackwardMode, inputTensorsBox, getIbp, boxDomain, getLowerBox]⟩⟩

theorem merge_id {ι κ ν : Type} [Fintype κ] (prev : Back ι κ α) (b : Back κ ν α) : MergeRounded id prev b (mergeWithPrevious prev b) :=
  ⟨fun _ _ => ⟨_, _, isSum_id _, isSum_id _, rfl⟩, fun _ _ => ⟨_, _, isSum_id _, isSum_id _, rfl⟩, fun _ => ⟨_, _, isSum_id _, isSum_id _, rfl⟩,
    fun _ => ⟨_, _, isSum_id _, isSum_id _, rfl⟩⟩

theorem Net.RoundedCrown.exact (eps : α) (sl : Slope) (x : BoxOf ι α) {κ : Type} (n : Net α ι κ) (hp : n.PlainBack) :
    (∀ b, ((boxCrown .ibp eps sl false x.1 x.2).node n).first = .ok b → (n.RoundedCrown id eps sl 0 x).1 b) ∧
      ∀ (ν : Type) (b : Back κ ν α) b', ((boxCrown .ibp eps sl false x.1 x.2).node n).next ν b = .ok b' → (n.RoundedCrown id eps sl 0 x).2 ν b b' := by
  induction n with
  | input =>
    refine ⟨fun b hb => ?_, fun ν b b' hb => ?_⟩
    · cases hb; rfl
    · cases hb; exact merge_id _ _
  | merge op n0 n1 _ _ => exact hp.elim
  | @layer κ₁ κ₂ _ _ i3 n l ih =>
    obtain ⟨i1, i2⟩ := ih hp.1
    have hch : ∀ f, (boxCrown .ibp eps sl false x.1 x.2).childInput n ((boxCrown .ibp eps sl false x.1 x.2).node n) = .ok f →
        ∃ b0 u lo, (n.RoundedCrown id eps sl 0 x).1 b0 ∧ ConstRounded id x b0 u lo ∧ l.RoundedBack id eps sl 0 u lo (l.backward boxDomain .ibp eps sl f) := by
      intro f h
      unfold CrownCfg.childInput at h
      rw [if_neg (by simp [boxCrown])] at h
      cases hb : ((boxCrown .ibp eps sl false x.1 x.2).node n).first with
      | error e => rw [hb] at h; cases h
      | ok b0 =>
        rw [hb] at h
        cases h
        refine ⟨b0, _, _, i1 b0 hb, const_id x .ibp rfl b0, ?_⟩
        cases l with
        | relu gf gb =>
          refine ⟨hp.2, ?_⟩
          have g1 : gb = fun _ => 1 := funext hp.2
          have t : ∀ g : Full (BoxOf ι α) ι κ₁ α, g.tighten boxDomain .ibp true true = g := fun g => rfl
          simp only [hull_id, Lay.backward, backwardRelu, t, g1]
          rfl
        | batchNorm gamma beta mean sd => exact ⟨fun i k => by simp [Lay.backward], fun k => by simp [Lay.backward]⟩
        | _ => rfl
    constructor
    · intro b h
      simp only [CrownCfg.node] at h
      cases hf : (boxCrown .ibp eps sl false x.1 x.2).childInput n ((boxCrown .ibp eps sl false x.1 x.2).node n) with
      | error e => rw [hf] at h; cases h
      | ok f =>
        rw [hf] at h
        exact ⟨_, hch f hf, i2 _ _ _ h⟩
    · intro ν b b' h
      simp only [CrownCfg.node] at h
      cases hf : (boxCrown .ibp eps sl false x.1 x.2).childInput n ((boxCrown .ibp eps sl false x.1 x.2).node n) with
      | error e => rw [hf] at h; cases h
      | ok f =>
        rw [hf] at h
        exact ⟨_, _, hch f hf, merge_id _ _, i2 _ _ _ h⟩

/-- C152: in exact arithmetic the bounds of the clone are among them. -/
theorem C152_exact (eps : α) (sl : Slope) (x : BoxOf ι α) (n : Net α ι κ) (hp : n.PlainBack) (f : Full (BoxOf ι α) ι κ α)
    (h : (boxCrown .ibp eps sl false x.1 x.2).model n = .ok f) : n.CrownRounded id eps sl 0 x f.uc f.lc := by
  unfold CrownCfg.model at h
  cases hb : ((boxCrown .ibp eps sl false x.1 x.2).node n).first with
  | error e => rw [hb] at h; cases h
  | ok b =>
    rw [hb] at h
    cases h
    exact ⟨b, (Net.RoundedCrown.exact eps sl x n hp).1 b hb, const_id x .ibp rfl b⟩

/-- C152: the same with `back_bounds`. -/
theorem C152_exact_back (eps : α) (sl : Slope) (x : BoxOf ι α) (n : Net α ι κ) (hp : n.PlainBack) (C : κ → ν → α) (f : Full (BoxOf ι α) ι ν α)
    (h : (boxCrown .ibp eps sl false x.1 x.2).modelBack n C = .ok f) : n.CrownBackRounded id eps sl 0 x C f.uc f.lc := by
  unfold CrownCfg.modelBack at h
  cases hb : ((boxCrown .ibp eps sl false x.1 x.2).node n).next ν ⟨C, fun _ => 0, C, fun _ => 0⟩ with
  | error e => rw [hb] at h; cases h
  | ok b =>
    rw [hb] at h
    cases h
    exact ⟨b, (Net.RoundedCrown.exact eps sl x n hp).2 ν _ b hb, const_id x .ibp rfl b⟩

omit [DecidableEq ι] in
/-- C152: in exact arithmetic the slack is the one of C105. -/
theorem C152_zero (eps : α) (he : 0 < eps) (X : ι → α) (n : Net α ι κ) (hc : n.Chain) (k : κ) :
    (n.crownFloat 0 eps 0 X).range 0 (Fintype.card ι) k = eps * n.gain k := by
  have r0 : ∀ {κ : Type} (n : Net α ι κ) (k : κ), (n.crownFloat 0 eps 0 X).range 0 (Fintype.card ι) k = (n.crownFloat 0 eps 0 X).slack k := fun n k => by
    simp [CrownFloat.range]
  rw [r0, ← (C150_zero false eps he 0 0 X n hc).1]
  have key : (n.crownFloat 0 eps 0 X).slack = (n.crownSlack false 0 eps 0 0 X).1 ∧
      ∀ B M, (n.crownFloat 0 eps 0 X).next B M = (n.crownSlack false 0 eps 0 0 X).2 B := by
    clear k
    induction n with
    | input => exact ⟨by simp [Net.crownFloat, Net.crownSlack], fun B M => by simp [Net.crownFloat, Net.crownSlack]⟩
    | merge op n0 n1 _ _ => exact absurd hc (by simp [Net.Chain])
    | layer n l ih =>
      obtain ⟨h1, h2⟩ := ih hc
      have own : l.ownFloat 0 eps 0 (n.crownFloat 0 eps 0 X).size
          (fun k => (1 + 0) ^ (Fintype.card ι + 2) * ((n.crownFloat 0 eps 0 X).top * (n.crownFloat 0 eps 0 X).size k))
          ((n.crownFloat 0 eps 0 X).range 0 (Fintype.card ι)) = l.ownTol eps 0 (n.crownSlack false 0 eps 0 0 X).1 := by
        rw [← h1]
        funext k
        cases l <;> simp [Lay.ownFloat, Lay.ownTol, r0]
      have w : l.weightFloat (0 : α) 0 = l.absWeight := by
        cases l <;> simp [Lay.weightFloat, Lay.absWeight]
      constructor
      · funext k
        simp only [Net.crownFloat, Net.crownSlack, own, w, h2]
        simp
      · intro B M
        simp only [Net.crownFloat, Net.crownSlack, own, w, h2]
        simp
  rw [key.1]

end

/-- Two classes: `relu(x0 - x1 + 1) + 1` and `relu(x0 - x1 + 1) - relu(x1) - 1`. -/
def twoClassNet : Net ℚ (Fin 2) (Fin 2) :=
  .layer (κ := Fin 2) (.layer (κ := Fin 2) (.layer (κ := Fin 2) .input (.dense ![![1, 0], ![-1, 1]] ![1, 0])) (.relu (fun _ => 1) fun _ => 1))
    (.dense ![![1, 1], ![0, -1]] ![1, -1])

/-- C152 in single precision (`float32` has 24 bits) on `[-1, 1]²`: the computed bounds enclose the outputs up to `1e-4`, for every slope. -/
example (sl : Slope) (U L : Fin 2 → ℚ) (hr : twoClassNet.CrownRounded (roundNearest 24) (1 / 10000000) sl 0 (fun _ => -1, fun _ => 1) U L) (p : Fin 2 → ℚ)
    (hp : p ∈ Box (fun _ => -1) fun _ => (1 : ℚ)) :
    L 0 - 1 / 10000 ≤ max (p 0 - p 1 + 1) 0 + 1 ∧ max (p 0 - p 1 + 1) 0 + 1 ≤ U 0 + 1 / 10000 := by
  have a := C152_range (δ := (1 / 2) ^ 24) (by norm_num) (by norm_num) (C118_float_error 24) (1 / 10000000) (by norm_num) sl 0 le_rfl
    (fun _ => -1, fun _ => 1) twoClassNet (by simp [twoClassNet, Net.Chain]) (by simp [twoClassNet, Net.WF, Lay.WF]) U L hr p hp 0
  have e : (twoClassNet.crownFloat ((1 / 2) ^ 24) (1 / 10000000) 0 (boxPeak (fun _ => -1, fun _ => 1))).range ((1 / 2) ^ 24) (Fintype.card (Fin 2)) 0 ≤
      1 / 10000 := by
    decide +kernel
  have ev : twoClassNet.eval p 0 = max (p 0 - p 1 + 1) 0 + 1 := by
    simp [twoClassNet, Net.eval, Lay.eval, Fin.sum_univ_two]
    ring_nf
  rw [ev] at a
  constructor <;> linarith [a.1, a.2]

/-- C152: with `C = (-1, 1)ᵀ` as back bounds, a computed bound below `-1e-4` certifies the first class for every output that Keras computes in single
precision. -/
example (sl : Slope) (U L : Fin 1 → ℚ)
    (hr : twoClassNet.CrownBackRounded (roundNearest 24) (1 / 10000000) sl 0 (fun _ => -1, fun _ => 1) ![fun _ => -1, fun _ => 1] U L)
    (hc : U 0 < -(1 / 10000)) (p : Fin 2 → ℚ) (hp : p ∈ Box (fun _ => -1) fun _ => (1 : ℚ)) (v : Fin 2 → ℚ)
    (hv : twoClassNet.RoundedCall (roundNearest 24) (fun _ _ _ _ _ => 0) p v) : v 1 < v 0 := by
  have a := C152_back_certificate (δ := (1 / 2) ^ 24) (by norm_num) (by norm_num) (C118_float_error 24) (1 / 10000000) (by norm_num) sl 0 le_rfl
    (fun _ _ _ _ _ => 0) (fun _ _ _ _ _ => le_rfl) (fun _ _ _ _ _ _ _ _ => le_rfl) 1 one_pos (fun _ => -1, fun _ => 1) twoClassNet
    (by simp [twoClassNet, Net.Chain]) (by simp [twoClassNet, Net.WF, Lay.WF]) (by simp [twoClassNet, Net.SdAbove, Lay.SdAbove]) _ U L hr 0
    (lt_of_lt_of_le hc (by decide +kernel)) p hp v hv
  simp [Fin.sum_univ_two] at a
  linarith

/-- C152: and the clone returns such a bound: `-2` exactly. -/
example : ∃ f, (boxCrown .ibp (1 / 10000000 : ℚ) .vSlope false (fun _ => -1) fun _ => 1).modelBack twoClassNet ![fun _ => (-1 : ℚ), fun _ => 1] =
    .ok f ∧ f.uc (0 : Fin 1) = -2 :=
  ⟨_, rfl, by decide +kernel⟩

end Decomon
