import Verif.Lemmas.Order
import Verif.Lemmas.Slack
import Verif.Props.Rate
import Verif.SpecWidth

/-! Helper lemmas on the width of the affine and of the backward bounds. -/

namespace Decomon

section Scalar
variable {α : Type} [Field α] [LinearOrder α] [IsStrictOrderedRing α]

/-- The hull of a ReLU on `[lt, ut]` maps the larger interval `[l, u]` into one that is not wider. -/
theorem hull_range (eps : α) (he : 0 < eps) {l u lt ut : α} (h : l ≤ u) (hl : l ≤ lt) (hu : ut ≤ u) :
    ∃ u' l' : α, l' ≤ u' ∧ u' - l' ≤ u - l ∧
      (∀ s g, 0 ≤ g → g ≤ 1 → (linearHullRelu eps s g ut lt).wu * u + (linearHullRelu eps s g ut lt).bu ≤ u' ∧
        l' ≤ (linearHullRelu eps s g ut lt).wl * l + (linearHullRelu eps s g ut lt).bl) ∧
      (lt ≤ ut → l' ≤ relu lt ∧ relu ut ≤ u') := by
  rcases le_or_gt 0 lt with h0 | h0
  · refine ⟨u, l, h, le_rfl, fun s g _ _ => ?_, fun h1 => ?_⟩
    · rw [hullRelu_linear s h0]; simp
    · rw [relu_of_nonneg h0, relu_of_nonneg (h0.trans h1)]; exact ⟨hl, hu⟩
  · rcases le_or_gt ut 0 with h1 | h1
    · refine ⟨0, 0, le_rfl, by linarith, fun s g _ _ => ?_, fun _ => ?_⟩
      · rw [hullRelu_dead s h1 h0]; simp
      · rw [relu_of_nonpos h0.le, relu_of_nonpos h1]; exact ⟨le_rfl, le_rfl⟩
    · refine ⟨u, l, h, le_rfl, fun s g g0 g1 => ?_, fun _ => ?_⟩
      · obtain ⟨e1, e2, w0, w1, e3⟩ := hullRelu_active s he g0 g1 h1 h0
        obtain ⟨⟨a0, a1⟩, -⟩ := hullRelu_unit ut lt s he g0 g1
        rw [e1] at a0 a1
        rw [e1, e2, e3]
        set a := ut / max eps (ut - lt) with ha
        have hm : 0 < max eps (ut - lt) := lt_max_of_lt_left he
        have hau : a * max eps (ut - lt) = ut := by rw [ha]; field_simp
        have hle : a * (ut - lt) ≤ ut := by
          have := mul_le_mul_of_nonneg_left (le_max_right eps (ut - lt)) a0
          linarith
        constructor
        · nlinarith [mul_le_mul_of_nonneg_right a1 (sub_nonneg.2 hu)]
        · nlinarith
      · rw [relu_of_nonpos h0.le, relu_of_nonneg h1.le]; exact ⟨by linarith, hu⟩

end Scalar

section Held
variable {X ι κ κ' α : Type} [Fintype ι] [DecidableEq ι] [Field α] [LinearOrder α] [IsStrictOrderedRing α]

/-- All the bounds of `f` on the set `S` stay in the interval `[l, u]`. -/
structure Held (m : Mode) (S : Set (ι → α)) (f : Full X ι κ α) (u l : κ → α) : Prop where
  const : m = .ibp → ∀ k, l k ≤ f.lc k ∧ f.uc k ≤ u k
  aff : getAffine m = true → ∀ p ∈ S, ∀ k, l k ≤ f.toBack.evalL p k ∧ f.toBack.evalU p k ≤ u k

/-- The bounds with constants only. -/
def constBack (u l : κ → α) : Back ι κ α := ⟨fun _ _ => 0, u, fun _ _ => 0, l⟩

def constFull (x : X) (u l : κ → α) : Full X ι κ α := ⟨x, u, fun _ _ => 0, u, l, fun _ _ => 0, l, fun _ => 0, fun _ => 0⟩

omit [LinearOrder α] [IsStrictOrderedRing α] in
@[simp] theorem constBack_evalU (u l : κ → α) (p : ι → α) (k : κ) : (constBack u l).evalU p k = u k := by
  simp [constBack, Back.evalU, affEval]

omit [LinearOrder α] [IsStrictOrderedRing α] in
@[simp] theorem constBack_evalL (u l : κ → α) (p : ι → α) (k : κ) : (constBack u l).evalL p k = l k := by
  simp [constBack, Back.evalL, affEval]

omit [IsStrictOrderedRing α] in
/-- The concretised affine bounds. -/
theorem Held.conc {m : Mode} {S : Set (ι → α)} {f : Full X ι κ α} {u l : κ → α} (h : Held m S f u l) (D : PertDomain X ι α)
    (x : X) (hD : Attains D x S) (ha : getAffine m = true) (k : κ) :
    l k ≤ D.getLower x (fun i => f.wl i k) (f.bl k) ∧ D.getUpper x (fun i => f.wu i k) (f.bu k) ≤ u k := by
  obtain ⟨p, hp, e⟩ := (hD (fun i => f.wl i k) (f.bl k)).2
  obtain ⟨q, hq, e'⟩ := (hD (fun i => f.wu i k) (f.bu k)).1
  exact ⟨e ▸ (h.aff ha p hp k).1, e' ▸ (h.aff ha q hq k).2⟩

omit [IsStrictOrderedRing α] in
theorem Held.tighten {m : Mode} {S : Set (ι → α)} {f : Full X ι κ α} {u l : κ → α} (h : Held m S f u l) (D : PertDomain X ι α)
    (hD : Attains D f.x S) (k : κ) : l k ≤ (f.tighten D m true true).lc k ∧ (f.tighten D m true true).uc k ≤ u k := by
  cases m with
  | ibp => exact h.const rfl k
  | affine => exact h.conc D f.x hD rfl k
  | hybrid =>
    have := h.conc D f.x hD rfl k
    exact ⟨le_max_of_le_right this.1, min_le_of_right_le this.2⟩

/-- The domain without input. -/
def pointDomain : PertDomain Unit (Fin 0) α := ⟨fun _ _ b => b, fun _ _ b => b⟩

omit [IsStrictOrderedRing α] in
theorem pointDomain_sound : (pointDomain (α := α)).Sound () Set.univ := fun p _ w b => by simp [pointDomain, affEval]

/-- At a point the affine bounds of a layer without activation are the interval bounds of the layer. -/
theorem forward_at [Fintype κ] (D : PertDomain X ι α) (m : Mode) (hm : getAffine m = true) (eps : α) (s : Slope) (l : Lay α κ κ')
    (hr : l.NoRelu) (f : Full X ι κ α) (p : ι → α) (k : κ') :
    (l.forward D m eps s f).toBack.evalU p k = (l.forward D .ibp eps s (constFull f.x (f.toBack.evalU p) (f.toBack.evalL p))).uc k ∧
      (l.forward D m eps s f).toBack.evalL p k = (l.forward D .ibp eps s (constFull f.x (f.toBack.evalU p) (f.toBack.evalL p))).lc k := by
  have hib : getIbp .ibp = true := rfl
  cases l with
  | dense kernel bias =>
    simp only [Lay.forward, denseT, hm, hib, if_true, tighten_ibp_eq, Full.toBack, Back.evalU, Back.evalL, constFull]
    rw [taps_aff, taps_aff]
    simp only [tighten_wu, tighten_bu, tighten_wl, tighten_bl, and_self]
  | linear L kernel bias =>
    simp only [Lay.forward, linearLayerT, hm, hib, if_true, tighten_ibp_eq, Full.toBack, Back.evalU, Back.evalL, constFull, LinIndex.apply]
    rw [taps_aff, taps_aff]
    simp only [affEval_elim, tighten_wu, tighten_bu, tighten_wl, tighten_bl]
    exact ⟨rfl, rfl⟩
  | relu gf gb => exact hr.elim
  | batchNorm gamma beta mean sd =>
    have aff : ∀ k (c d : α) (w w' : ι → α) (b b' : α),
        affEval (fun i => c * (w i / sd k) + d * (w' i / sd k))
          (c * ((b - mean k) / sd k) + d * ((b' - mean k) / sd k) + beta k) p =
        c * ((affEval w b p - mean k) / sd k) + d * ((affEval w' b' p - mean k) / sd k) + beta k := by
      intro k c d w w' b b'
      rw [affEval_add_const, affEval_add, affEval_smul, affEval_smul]
      have : ∀ (w : ι → α) (b : α), affEval (fun i => w i / sd k) ((b - mean k) / sd k) p = (affEval w b p - mean k) / sd k := by
        intro w b
        rw [affEval_div, sub_eq_add_neg, affEval_add_const, sub_eq_add_neg]
      rw [this, this]
    simp only [Lay.forward, batchNormT, hm, hib, if_true, tighten_ibp_eq, Full.toBack, Back.evalU, Back.evalL, constFull, aff, tighten_wu, tighten_bu,
      tighten_wl, tighten_bl, and_self]
  | reshape e =>
    simp only [Lay.forward, reindexT, hm, hib, if_true, tighten_ibp_eq, Full.toBack, Back.evalU, Back.evalL, constFull, tighten_wu, tighten_bu,
      tighten_wl, tighten_bl, and_self]
  | skip => exact ⟨rfl, rfl⟩

/-- One layer: the forward and the backward bounds stay in an interval of the announced width. -/
theorem layer_held [Fintype κ] [DecidableEq κ] (D : PertDomain X ι α) (m : Mode) (eps : α) (he : 0 < eps) (s : Slope) (lay : Lay α κ κ')
    (hl : lay.WF) (f : Full X ι κ α) (S : Set (ι → α)) (hD : Attains D f.x S) (u l w : κ → α) (hul : ∀ k, l k ≤ u k)
    (hw : ∀ k, u k - l k ≤ w k) (hf : Held m S f u l) :
    ∃ u' l' : κ' → α, (∀ k, l' k ≤ u' k) ∧ (∀ k, u' k - l' k ≤ lay.spread w k) ∧
      ((m = .ibp → ∀ k, f.lc k ≤ f.uc k) → Held m S (lay.forward D m eps s f) u' l') ∧
      ∀ (p : ι → α) k, (mergeWithPrevious (constBack u l) (lay.backward D m eps s f)).evalU p k ≤ u' k ∧
        l' k ≤ (mergeWithPrevious (constBack u l) (lay.backward D m eps s f)).evalL p k := by
  have w0 : ∀ k, 0 ≤ w k := fun k => (sub_nonneg.2 (hul k)).trans (hw k)
  have ho : ∀ (p : ι → α) k, (constBack u l).evalL p k ≤ (constBack u l).evalU p k := fun p k => by simpa using hul k
  have key : lay.NoRelu → _ := fun hr => by
    set g : Full X ι κ α := constFull f.x u l with hg
    have hval : ∀ v : κ → α, (∀ k, l k ≤ v k ∧ v k ≤ u k) → ∀ k, (lay.forward D .ibp eps s g).lc k ≤ lay.eval v k ∧
        lay.eval v k ≤ (lay.forward D .ibp eps s g).uc k := by
      intro v hv k
      have hs : lay.SliverOK pointDomain .ibp eps (constFull () u l) := by cases lay <;> first | trivial | exact hr.elim
      have a := (lay.forward_valid pointDomain .ibp eps he s hl (constFull () u l) Set.univ pointDomain_sound hs (fun i => i.elim0) trivial v
        ⟨fun _ => hv, fun h => absurd h (by decide), fun h => absurd h (by decide)⟩).const rfl k
      have t := tighter_layer (D := pointDomain) (D' := D) (m := .ibp) rfl eps s s lay hl (f := constFull () u l) (g := g)
        (fun _ => ⟨le_rfl, le_rfl⟩) k
      exact ⟨t.1.trans a.1, a.2.trans t.2⟩
    refine (⟨(lay.forward D .ibp eps s g).uc, (lay.forward D .ibp eps s g).lc, fun k => ?_, fun k => ?_, fun _ => ⟨fun hm k => ?_, fun hm p hp k => ?_⟩,
      fun p k => ⟨?_, ?_⟩⟩ : ∃ u' l' : κ' → α, (∀ k, l' k ≤ u' k) ∧ (∀ k, u' k - l' k ≤ lay.spread w k) ∧
      ((m = .ibp → ∀ k, f.lc k ≤ f.uc k) → Held m S (lay.forward D m eps s f) u' l') ∧
      ∀ (p : ι → α) k, (mergeWithPrevious (constBack u l) (lay.backward D m eps s f)).evalU p k ≤ u' k ∧
        l' k ≤ (mergeWithPrevious (constBack u l) (lay.backward D m eps s f)).evalL p k)
    · exact (hval u (fun k => ⟨hul k, le_rfl⟩) k).1.trans (hval u (fun k => ⟨hul k, le_rfl⟩) k).2
    · exact lay.width_spread D eps s hl w w0 g hw k
    · subst hm
      exact tighter_layer (D := D) (D' := D) rfl eps s s lay hl (f := f) (g := g) (hf.const rfl) k
    · rw [(forward_at D m hm eps s lay hr f p k).1, (forward_at D m hm eps s lay hr f p k).2]
      exact tighter_layer (D := D) (D' := D) rfl eps s s lay hl (f := constFull f.x (f.toBack.evalU p) (f.toBack.evalL p)) (g := g) (hf.aff hm p hp) k
    · obtain ⟨v, h1, h2⟩ := merge_upper_at (constBack u l) (lay.backward D m eps s f) p (ho p) k
      rw [h2, (noRelu_backward D m eps he s lay hr hl f v k).1]
      exact (hval v (by simpa using h1) k).2
    · obtain ⟨v, h1, h2⟩ := merge_lower_at (constBack u l) (lay.backward D m eps s f) p (ho p) k
      rw [h2, (noRelu_backward D m eps he s lay hr hl f v k).2]
      exact (hval v (by simpa using h1) k).1
  cases lay with
  | relu gf gb =>
    have ht := hf.tighten D hD
    choose u' l' h1 h2 h3 h4 using fun k => hull_range eps he (hul k) (ht k).1 (ht k).2
    have n1 := fun g (hg : 0 ≤ g ∧ g ≤ 1) k => hullRelu_unit (eps := eps) (g := g) ((f.tighten D m true true).uc k) ((f.tighten D m true true).lc k) s he
      hg.1 hg.2
    refine ⟨u', l', h1, fun k => (h2 k).trans (hw k), fun hv => ⟨fun hm k => ?_, fun hm p hp k => ?_⟩, fun p k => ⟨?_, ?_⟩⟩
    · subst hm
      exact h4 k (hv rfl k)
    · have eu : ((Lay.relu gf gb).forward D m eps s f).toBack.evalU p k =
          (linearHullRelu eps s (gf k) ((f.tighten D m true true).uc k) ((f.tighten D m true true).lc k)).wu * f.toBack.evalU p k +
          (linearHullRelu eps s (gf k) ((f.tighten D m true true).uc k) ((f.tighten D m true true).lc k)).bu := by
        simp only [Lay.forward, reluT, Full.toBack, Back.evalU, hm, if_true, tighten_wu, tighten_bu]
        rw [affEval_add_const, affEval_smul]
      have el : ((Lay.relu gf gb).forward D m eps s f).toBack.evalL p k =
          (linearHullRelu eps s (gf k) ((f.tighten D m true true).uc k) ((f.tighten D m true true).lc k)).wl * f.toBack.evalL p k +
          (linearHullRelu eps s (gf k) ((f.tighten D m true true).uc k) ((f.tighten D m true true).lc k)).bl := by
        simp only [Lay.forward, reluT, Full.toBack, Back.evalL, hm, if_true, tighten_wl, tighten_bl]
        rw [affEval_add_const, affEval_smul]
      have a := hf.aff hm p hp k
      have b := h3 k s (gf k) (hl k).1.1 (hl k).1.2
      have c := n1 _ (hl k).1 k
      rw [eu, el]
      exact ⟨b.2.trans (add_le_add (mul_le_mul_of_nonneg_left a.1 c.2.1) le_rfl),
        (add_le_add (mul_le_mul_of_nonneg_left a.2 c.1.1) le_rfl).trans b.1⟩
    · obtain ⟨v, hv, e⟩ := merge_upper_at (constBack u l) ((Lay.relu gf gb).backward D m eps s f) p (ho p) k
      rw [e]
      simp only [Lay.backward, backwardRelu, evalU_diag]
      simp only [constBack_evalU, constBack_evalL] at hv
      exact (add_le_add (mul_le_mul_of_nonneg_left (hv k).2 (n1 _ (hl k).2 k).1.1) le_rfl).trans (h3 k s (gb k) (hl k).2.1 (hl k).2.2).1
    · obtain ⟨v, hv, e⟩ := merge_lower_at (constBack u l) ((Lay.relu gf gb).backward D m eps s f) p (ho p) k
      rw [e]
      simp only [Lay.backward, backwardRelu, evalU_diag]
      simp only [constBack_evalU, constBack_evalL] at hv
      exact (h3 k s (gb k) (hl k).2.1 (hl k).2.2).2.trans (add_le_add (mul_le_mul_of_nonneg_left (hv k).1 (n1 _ (hl k).2 k).2.1) le_rfl)
  | _ => exact key trivial

/-- The same for the ReLU of `Maximum` and `Minimum`. -/
theorem relu_held (D : PertDomain X ι α) (m : Mode) (hm : getAffine m = true) (eps : α) (he : 0 < eps) (f : Full X ι κ α) (S : Set (ι → α))
    (hD : Attains D f.x S) (u l : κ → α) (hul : ∀ k, l k ≤ u k) (hf : Held m S f u l) :
    ∃ u' l' : κ → α, (∀ k, l' k ≤ u' k) ∧ (∀ k, u' k - l' k ≤ u k - l k) ∧ Held m S (reluT D m false eps .vSlope (fun _ => 1) f) u' l' := by
  have ht := hf.tighten D hD
  have hne : m ≠ .ibp := by rintro rfl; exact absurd hm (by decide)
  choose u' l' h1 h2 h3 h4 using fun k => hull_range eps he (hul k) (ht k).1 (ht k).2
  refine ⟨u', l', h1, h2, fun h => absurd h hne, fun _ p hp k => ?_⟩
  obtain ⟨⟨n1, -⟩, n2, -⟩ := hullRelu_unit (eps := eps) (g := 1) ((f.tighten D m true true).uc k) ((f.tighten D m true true).lc k) .vSlope he
    zero_le_one le_rfl
  have a := hf.aff hm p hp k
  have b := h3 k .vSlope 1 zero_le_one le_rfl
  simp only [reluT, Full.toBack, Back.evalU, Back.evalL, hm, if_true, tighten_wu, tighten_bu, tighten_wl, tighten_bl]
  rw [affEval_add_const, affEval_smul, affEval_add_const, affEval_smul]
  exact ⟨b.2.trans (add_le_add (mul_le_mul_of_nonneg_left a.1 n2) le_rfl), (add_le_add (mul_le_mul_of_nonneg_left a.2 n1) le_rfl).trans b.1⟩

variable {m : Mode} {S : Set (ι → α)} {f f0 f1 : Full X ι κ α} {u l u0 l0 u1 l1 : κ → α}

theorem Held.add (hm : getAffine m = true) (D : PertDomain X ι α) (h0 : Held m S f0 u0 l0) (h1 : Held m S f1 u1 l1) :
    Held m S (addT D m f0 f1) (fun k => u0 k + u1 k) (fun k => l0 k + l1 k) := by
  have hne : m ≠ .ibp := by rintro rfl; exact absurd hm (by decide)
  refine ⟨fun h => absurd h hne, fun _ p hp k => ?_⟩
  have a := h0.aff hm p hp k
  have b := h1.aff hm p hp k
  simp only [addT, Full.toBack, Back.evalU, Back.evalL, affEval_add, tighten_wu, tighten_bu, tighten_wl, tighten_bl] at *
  exact ⟨add_le_add a.1 b.1, add_le_add a.2 b.2⟩

theorem Held.minus (hm : getAffine m = true) (D : PertDomain X ι α) (h : Held m S f u l) :
    Held m S (minusT D m f) (fun k => - l k) (fun k => - u k) := by
  have hne : m ≠ .ibp := by rintro rfl; exact absurd hm (by decide)
  refine ⟨fun h => absurd h hne, fun _ p hp k => ?_⟩
  have a := h.aff hm p hp k
  simp only [minusT, Full.toBack, Back.evalU, Back.evalL, affEval_neg, tighten_wu, tighten_bu, tighten_wl, tighten_bl] at *
  exact ⟨neg_le_neg a.2, neg_le_neg a.1⟩

theorem maximum_held (D : PertDomain X ι α) (hm : getAffine m = true) (eps : α) (he : 0 < eps) (hD : Attains D f1.x S)
    (hul0 : ∀ k, l0 k ≤ u0 k) (hul1 : ∀ k, l1 k ≤ u1 k) (h0 : Held m S f0 u0 l0) (h1 : Held m S f1 u1 l1) :
    ∃ u' l' : κ → α, (∀ k, l' k ≤ u' k) ∧ (∀ k, u' k - l' k ≤ 2 * (u0 k - l0 k) + (u1 k - l1 k)) ∧
      Held m S (maximumT D m false eps (fun _ => 1) f0 f1) u' l' := by
  obtain ⟨u', l', a1, a2, a3⟩ := relu_held D m hm eps he (subtractT D m f1 f0) S (by simpa [subtractT, addT] using hD) _ _
    (fun k => by have := hul0 k; have := hul1 k; linarith) (Held.add hm D h1 (Held.minus hm D h0))
  exact ⟨_, _, fun k => add_le_add (a1 k) (hul0 k), fun k => by have := a2 k; linarith, Held.add hm D a3 h0⟩

theorem merge_held (D : PertDomain X ι α) (hm : getAffine m = true) (eps : α) (he : 0 < eps) (op : MergeOp) (hop : op ≠ .multiply)
    (hD : Attains D f1.x S) (hul0 : ∀ k, l0 k ≤ u0 k) (hul1 : ∀ k, l1 k ≤ u1 k)
    (h0 : Held m S f0 u0 l0) (h1 : Held m S f1 u1 l1) :
    ∃ u' l' : κ → α, (∀ k, l' k ≤ u' k) ∧ (∀ k, u' k - l' k ≤ op.spread (u0 k - l0 k) (u1 k - l1 k)) ∧
      Held m S (op.forward D m eps f0 f1) u' l' := by
  have hne : m ≠ .ibp := by rintro rfl; exact absurd hm (by decide)
  cases op with
  | add =>
    refine ⟨fun k => u0 k + u1 k, fun k => l0 k + l1 k, fun k => add_le_add (hul0 k) (hul1 k), fun k => ?_, fun h => absurd h hne, fun _ p hp k => ?_⟩
    · simp only [MergeOp.spread]; linarith
    · have a := h0.aff hm p hp k
      have b := h1.aff hm p hp k
      simp only [MergeOp.forward, addLayerT, hm, if_true, List.map_cons, List.map_nil, List.sum_cons, List.sum_nil, add_zero, Full.toBack,
        Back.evalU, Back.evalL, affEval_add, tighten_wu, tighten_bu, tighten_wl, tighten_bl] at *
      exact ⟨add_le_add a.1 b.1, add_le_add a.2 b.2⟩
  | average =>
    refine ⟨fun k => (u0 k + u1 k) / 2, fun k => (l0 k + l1 k) / 2, fun k => ?_, fun k => ?_, fun h => absurd h hne, fun _ p hp k => ?_⟩
    · have := hul0 k; have := hul1 k; linarith
    · simp only [MergeOp.spread]; linarith
    · have a := h0.aff hm p hp k
      have b := h1.aff hm p hp k
      simp only [MergeOp.forward, averageLayerT, hm, if_true, List.map_cons, List.map_nil, List.sum_cons, List.sum_nil, add_zero, Full.toBack,
        Back.evalU, Back.evalL, affEval_div, affEval_add, tighten_wu, tighten_bu, tighten_wl, tighten_bl, List.length_cons, List.length_nil] at *
      push_cast
      constructor <;> linarith
  | subtract =>
    refine ⟨_, _, fun k => ?_, fun k => ?_, Held.add hm D h0 (Held.minus hm D h1)⟩
    · have := hul0 k; have := hul1 k; linarith
    · simp only [MergeOp.spread]; linarith
  | maximum => exact maximum_held D hm eps he hD hul0 hul1 h0 h1
  | minimum =>
    obtain ⟨u', l', a1, a2, a3⟩ := maximum_held D hm eps he (f1 := minusT D m f1) (by simpa [minusT] using hD)
      (fun k => neg_le_neg (hul0 k)) (fun k => neg_le_neg (hul1 k)) (Held.minus hm D h0) (Held.minus hm D h1)
    refine ⟨_, _, fun k => neg_le_neg (a1 k), fun k => ?_, Held.minus hm D a3⟩
    have := a2 k
    simp only [MergeOp.spread]; linarith
  | multiply => exact absurd rfl hop

theorem MergeOp.spread_mono (op : MergeOp) {a b a' b' : α} (ha : a ≤ a') (hb : b ≤ b') : op.spread a b ≤ op.spread a' b' := by
  cases op <;> simp only [MergeOp.spread] <;> linarith

/-- The forward affine bounds of a network. -/
theorem net_held (D : PertDomain X ι α) (hm : getAffine m = true) (eps : α) (he : 0 < eps) (s : Slope) (inp : Full X ι ι α)
    (hD : Attains D inp.x S) (up lo w : ι → α) (hul : ∀ i, lo i ≤ up i) (hw : ∀ i, up i - lo i ≤ w i) (hi : Held m S inp up lo)
    (n : Net α ι κ) (hn : n.WF) (hmul : n.NoMultiply) :
    ∃ u l : κ → α, (∀ k, l k ≤ u k) ∧ (∀ k, u k - l k ≤ n.spread w k) ∧ Held m S (n.forward D m eps s inp) u l := by
  have hne : m ≠ .ibp := by rintro rfl; exact absurd hm (by decide)
  induction n with
  | input => exact ⟨up, lo, hul, hw, hi⟩
  | layer n lay ih =>
    obtain ⟨u, l, a1, a2, a3⟩ := ih hn.1 hmul
    obtain ⟨u', l', b1, b2, b3, -⟩ := layer_held D m eps he s lay hn.2 _ S (by rw [Net.forward_x]; exact hD) u l _ a1 a2 a3
    exact ⟨u', l', b1, b2, b3 fun h => absurd h hne⟩
  | merge op n0 n1 ih0 ih1 =>
    obtain ⟨u0, l0, a1, a2, a3⟩ := ih0 hn.1 hmul.2.1
    obtain ⟨u1, l1, b1, b2, b3⟩ := ih1 hn.2 hmul.2.2
    obtain ⟨u', l', c1, c2, c3⟩ := merge_held D hm eps he op hmul.1 (by rw [Net.forward_x]; exact hD) a1 b1 a3 b3
    exact ⟨u', l', c1, fun k => (c2 k).trans (op.spread_mono (a2 k) (b2 k)), c3⟩

end Held

section Crown
variable {X ι α : Type} [fi : Fintype ι] [DecidableEq ι] [Field α] [LinearOrder α] [IsStrictOrderedRing α]

/-- The conversion of backward bounds that stay in an interval. -/
theorem convert_held {κ : Type} (C : CrownCfg X ι α) (S : Set (ι → α)) (hst : C.m = .ibp → Attains C.D (C.stack C.inp.lc C.inp.uc) S)
    (r : Back ι κ α) (u l : κ → α) (h : ∀ p ∈ S, ∀ k, l k ≤ r.evalL p k ∧ r.evalU p k ≤ u k) :
    Held C.m S (convert2BackwardMode C.D C.stack C.m C.inp r) u l := by
  refine ⟨fun hm k => ?_, fun hm p hp k => ?_⟩
  · obtain ⟨p, hp, e⟩ := (hst hm (fun i => r.wl i k) (r.bl k)).2
    obtain ⟨q, hq, e'⟩ := (hst hm (fun i => r.wu i k) (r.bu k)).1
    simp only [convert2BackwardMode, hm, if_true, show getIbp .ibp = true from rfl]
    exact ⟨e ▸ (h p hp k).1, e' ▸ (h q hq k).2⟩
  · simp only [convert2BackwardMode, hm, if_true, Full.toBack]
    exact h p hp k

/-- The backward bounds of a chain. -/
theorem node_held (C : CrownCfg X ι α) (he : 0 < C.eps) (S : Set (ι → α)) (hA : Attains C.D C.inp.x S) (hS : C.D.Sound C.inp.x S)
    (hst : C.m = .ibp → Attains C.D (C.stack C.inp.lc C.inp.uc) S) (hv : ∀ p ∈ S, Valid C.m false C.inp p p)
    (up lo w : ι → α) (hp : ∀ p ∈ S, ∀ i, lo i ≤ p i ∧ p i ≤ up i) (hw : ∀ i, up i - lo i ≤ w i) (hi : Held C.m S C.inp up lo)
    {κ : Type} (n : Net α ι κ) (hc : n.Chain) (hn : n.WF) : ∀ _ : Fintype κ,
    ∃ u l : κ → α, (∀ k, l k ≤ u k) ∧ (∀ k, u k - l k ≤ n.spread w k) ∧
      (C.useForward = true → Held C.m S (n.forward C.D C.m C.eps C.slope C.inp) u l) ∧
      (∃ r, (C.node n).first = .ok r ∧ ∀ p ∈ S, ∀ k, l k ≤ r.evalL p k ∧ r.evalU p k ≤ u k) ∧
      ∀ (ν : Type) (b : Back κ ν α), ∃ r, (C.node n).next ν b = .ok r ∧ ∀ p ∈ S, ∀ k,
        (mergeWithPrevious (constBack u l) b).evalL p k ≤ r.evalL p k ∧ r.evalU p k ≤ (mergeWithPrevious (constBack u l) b).evalU p k := by
  obtain ⟨p0, hp0, -⟩ := (hA 0 0).1
  induction n with
  | input =>
    intro ft
    obtain rfl : ft = fi := Subsingleton.elim _ _
    have key : ∀ (ν : Type) (b : Back ι ν α), ∀ p ∈ S, ∀ k,
        (mergeWithPrevious (constBack up lo) b).evalL p k ≤ (fuse C.m C.inp (mergeWithPrevious Back.identity b)).evalL p k ∧
          (fuse C.m C.inp (mergeWithPrevious Back.identity b)).evalU p k ≤ (mergeWithPrevious (constBack up lo) b).evalU p k := by
      intro ν b p hpS k
      rw [merge_identity_left]
      by_cases hm : getAffine C.m = true
      · rw [fuse, if_pos hm]
        have := merge_mono C.inp.toBack (constBack up lo) b p (fun i => by simpa using (hi.aff hm p hpS i).2)
          (fun i => by simpa using (hi.aff hm p hpS i).1) k
        exact ⟨this.2, this.1⟩
      · rw [fuse, if_neg hm]
        exact ⟨le_lower_at (constBack up lo) b p p (by simpa using hp p hpS) k, upper_at_le (constBack up lo) b p p (by simpa using hp p hpS) k⟩
    refine ⟨up, lo, fun i => (hp p0 hp0 i).1.trans (hp p0 hp0 i).2, hw, fun _ => hi, ⟨_, rfl, fun p hpS k => ?_⟩, fun ν b => ⟨_, rfl, key ν b⟩⟩
    have := key ι Back.identity p hpS k
    simpa only [merge_identity_right, constBack_evalU, constBack_evalL] using this
  | @layer κ κ' fk dk fk' n lay ih =>
    intro ft
    obtain rfl : ft = fk' := Subsingleton.elim _ _
    obtain ⟨u, l, a1, a2, a3, ⟨r0, a4, a4'⟩, a5⟩ := ih hc hn.1 fk
    have hch : ∃ f, C.childInput n (C.node n) = .ok f ∧ Held C.m S f u l ∧ f.x = C.inp.x ∧
        (C.useForward = true → f = n.forward C.D C.m C.eps C.slope C.inp) := by
      by_cases huf : C.useForward = true
      · exact ⟨_, by rw [CrownCfg.childInput, if_pos huf], a3 huf, Net.forward_x .., fun _ => rfl⟩
      · refine ⟨convert2BackwardMode C.D C.stack C.m C.inp r0, by rw [CrownCfg.childInput, if_neg huf, a4]; rfl, convert_held C S hst r0 u l a4', ?_,
          fun h => absurd h huf⟩
        simp only [convert2BackwardMode]; split_ifs <;> rfl
    obtain ⟨f, c1, c2, c3, c4⟩ := hch
    obtain ⟨u', l', b1, b2, b3, b4⟩ := layer_held C.D C.m C.eps he C.slope lay hn.2 f S (by rw [c3]; exact hA) u l _ a1 a2 c2
    have ho : ∀ (p : ι → α) k, (constBack u l).evalL p k ≤ (constBack u l).evalU p k := fun p k => by simpa using a1 k
    refine ⟨u', l', b1, b2, fun huf => ?_, ?_, fun ν b => ?_⟩
    · rw [Net.forward, ← c4 huf]
      refine b3 fun hm k => ?_
      have := (Net.forward_valid C.D C.m C.eps he C.slope C.inp S hS p0 hp0 (hv p0 hp0) n hn.1 (by rw [hm]; exact Net.sliverOK_ibp ..)).const
        (by rw [hm]; rfl) k
      rw [c4 huf]
      exact this.1.trans this.2
    · obtain ⟨r, d1, d2⟩ := a5 _ (lay.backward C.D C.m C.eps C.slope f)
      refine ⟨r, ?_, fun p hpS k => ⟨(b4 p k).2.trans (d2 p hpS k).1, (d2 p hpS k).2.trans (b4 p k).1⟩⟩
      simp only [CrownCfg.node, c1]; exact d1
    · obtain ⟨r, d1, d2⟩ := a5 ν (mergeWithPrevious (lay.backward C.D C.m C.eps C.slope f) b)
      refine ⟨r, ?_, fun p hpS k => ?_⟩
      · simp only [CrownCfg.node, c1]; exact d1
      · have e := merge_right_le (constBack u l) (lay.backward C.D C.m C.eps C.slope f) b p (ho p) k
        have g := merge_mono _ (constBack u' l') b p (fun k => by simpa using (b4 p k).1) (fun k => by simpa using (b4 p k).2) k
        exact ⟨g.2.trans (e.2.trans (d2 p hpS k).1), (d2 p hpS k).2.trans (e.1.trans g.1)⟩
  | merge op n0 n1 => exact hc.elim

/-- The whole conversion. -/
theorem model_held (C : CrownCfg X ι α) (he : 0 < C.eps) (S : Set (ι → α)) (hA : Attains C.D C.inp.x S) (hS : C.D.Sound C.inp.x S)
    (hst : C.m = .ibp → Attains C.D (C.stack C.inp.lc C.inp.uc) S) (hv : ∀ p ∈ S, Valid C.m false C.inp p p)
    (up lo w : ι → α) (hp : ∀ p ∈ S, ∀ i, lo i ≤ p i ∧ p i ≤ up i) (hw : ∀ i, up i - lo i ≤ w i) (hi : Held C.m S C.inp up lo)
    {κ : Type} [fk : Fintype κ] (n : Net α ι κ) (hc : n.Chain) (hn : n.WF) :
    ∃ out, C.model n = .ok out ∧ ∃ u l : κ → α, (∀ k, u k - l k ≤ n.spread w k) ∧ Held C.m S out u l := by
  obtain ⟨u, l, -, a2, -, ⟨r, a4, a4'⟩, -⟩ := node_held C he S hA hS hst hv up lo w hp hw hi n hc hn fk
  exact ⟨_, by rw [CrownCfg.model, a4]; rfl, u, l, a2, convert_held C S hst r u l a4'⟩

/-- The same with backward bounds `[C]`. -/
theorem modelBack_held (C : CrownCfg X ι α) (he : 0 < C.eps) (S : Set (ι → α)) (hA : Attains C.D C.inp.x S) (hS : C.D.Sound C.inp.x S)
    (hst : C.m = .ibp → Attains C.D (C.stack C.inp.lc C.inp.uc) S) (hv : ∀ p ∈ S, Valid C.m false C.inp p p)
    (up lo w : ι → α) (hp : ∀ p ∈ S, ∀ i, lo i ≤ p i ∧ p i ≤ up i) (hw : ∀ i, up i - lo i ≤ w i) (hi : Held C.m S C.inp up lo)
    {κ ν : Type} [fk : Fintype κ] (n : Net α ι κ) (hc : n.Chain) (hn : n.WF) (M : κ → ν → α) :
    ∃ out, C.modelBack n M = .ok out ∧ ∃ u l : ν → α, (∀ j, u j - l j ≤ ∑ k, |M k j| * n.spread w k) ∧ Held C.m S out u l := by
  obtain ⟨u, l, -, a2, -, -, a5⟩ := node_held C he S hA hS hst hv up lo w hp hw hi n hc hn fk
  obtain ⟨r, d1, d2⟩ := a5 ν ⟨M, fun _ => 0, M, fun _ => 0⟩
  refine ⟨_, by rw [CrownCfg.modelBack, d1]; rfl, fun j => (∑ k, max 0 (M k j) * u k) + ∑ k, min 0 (M k j) * l k,
    fun j => (∑ k, max 0 (M k j) * l k) + ∑ k, min 0 (M k j) * u k, fun j => posneg_width (fun k => M k j) _ _ _ a2,
    convert_held C S hst r _ _ fun p hpS j => ?_⟩
  have := d2 p hpS j
  simpa only [evalU_merge, evalL_merge, constBack_evalU, constBack_evalL, add_zero] using this

end Crown

end Decomon
