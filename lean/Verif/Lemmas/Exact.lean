import Verif.SpecTight
import Verif.Lemmas.Network
import Verif.Props.Network

/-! Helper lemmas: bounds on a single point. -/

namespace Decomon

section
variable {X ι κ κ' ν α : Type} [Fintype ι] [Field α] [LinearOrder α] [IsStrictOrderedRing α]

theorem hullRelu_point (eps : α) (s : Slope) (g y : α) :
    (linearHullRelu eps s g y y).wl * y + (linearHullRelu eps s g y y).bl = max y 0 ∧
    (linearHullRelu eps s g y y).wu * y + (linearHullRelu eps s g y y).bu = max y 0 := by
  rcases le_or_gt 0 y with h | h
  · rw [hullRelu_linear s h, max_eq_left h]; simp
  · rw [hullRelu_dead s h.le h, max_eq_right h.le]; simp

omit [Fintype ι] in
theorem taps_point {T : Type*} [Fintype T] (c y : T → α) :
    ∑ t, max 0 (c t) * y t + ∑ t, min 0 (c t) * y t = ∑ t, c t * y t := by
  rw [← Finset.sum_add_distrib]
  refine Finset.sum_congr rfl fun t _ => ?_
  rw [← add_mul, max_comm, min_comm, pos_add_neg]

theorem boxDomain_point (p : ι → α) : (boxDomain : PertDomain _ ι α).Point (p, p) p := by
  intro w b
  have e : ∀ i, max (w i) 0 * p i + min (w i) 0 * p i = w i * p i := fun i => by rw [← add_mul, pos_add_neg]
  simp only [boxDomain, getLowerBox, getUpperBox, affEval, e, and_self]

theorem tighten_exact (D : PertDomain X ι α) (m : Mode) (c t : Bool) (f : Full X ι κ α) (p : ι → α) (hD : D.Point f.x p)
    (y : κ → α) (v : ExactAt m f p y) : ExactAt m (f.tighten D m c t) p y ∧
      (c = true → ∀ k, (f.tighten D m c t).lc k = y k ∧ (f.tighten D m c t).uc k = y k) := by
  have h1 := v.const
  have h2 := v.aff
  have h3 : getAffine m = true → ∀ k, D.getLower f.x (fun i => f.wl i k) (f.bl k) = y k ∧
      D.getUpper f.x (fun i => f.wu i k) (f.bu k) = y k := fun ha k => by
    rw [(hD _ _).1, (hD _ _).2]; exact h2 ha k
  refine ⟨⟨fun hi k => ?_, fun ha k => ?_⟩, fun hc k => ?_⟩
  · cases m <;> cases c <;> cases t <;> simp [Full.tighten, getIbp, getAffine] at * <;> simp [h1, h3]
  · simp only [tighten_wu, tighten_wl, tighten_bu, tighten_bl]; exact h2 ha k
  · subst hc
    cases m <;> cases t <;> simp [Full.tighten, getIbp, getAffine] at * <;> simp [h1, h3]

theorem reluT_exact (D : PertDomain X ι α) (m : Mode) (eps : α) (slope : Slope) (g : κ → α) (f : Full X ι κ α) (p : ι → α)
    (hD : D.Point f.x p) (y : κ → α) (v : ExactAt m f p y) :
    ExactAt m (reluT D m false eps slope g f) p (fun k => max (y k) 0) := by
  have hc := (tighten_exact D m true true f p hD y v).2 rfl
  refine ⟨fun hi k => ?_, fun ha k => ?_⟩
  · simp only [reluT, hi, if_true, hc, relu, and_self]
  · simp only [reluT, ha, if_true, hc, tighten_wu, tighten_wl, tighten_bu, tighten_bl]
    rw [affEval_add_const, affEval_add_const, affEval_smul, affEval_smul, (v.aff ha k).1, (v.aff ha k).2]
    exact hullRelu_point eps slope (g k) (y k)

theorem batchNorm_aff (sd mean beta c d : α) (w w' : ι → α) (b b' : α) (p : ι → α) :
    affEval (fun i => c * (w i / sd) + d * (w' i / sd)) (c * ((b - mean) / sd) + d * ((b' - mean) / sd) + beta) p =
      c * ((affEval w b p - mean) / sd) + d * ((affEval w' b' p - mean) / sd) + beta := by
  rw [affEval_add_const, affEval_add, affEval_smul, affEval_smul]
  have : ∀ (w : ι → α) (b : α), affEval (fun i => w i / sd) ((b - mean) / sd) p = (affEval w b p - mean) / sd := by
    intro w b
    rw [affEval_div, sub_eq_add_neg, affEval_add_const, sub_eq_add_neg]
  rw [this, this]

theorem addT_exact (D : PertDomain X ι α) (m : Mode) (f0 f1 : Full X ι κ α) (p : ι → α) (h0 : D.Point f0.x p)
    (h1 : D.Point f1.x p) (y0 y1 : κ → α) (v0 : ExactAt m f0 p y0) (v1 : ExactAt m f1 p y1) :
    ExactAt m (addT D m f0 f1) p (fun k => y0 k + y1 k) := by
  have a0 := (tighten_exact D m true true f0 p h0 y0 v0).1
  have a1 := (tighten_exact D m true true f1 p h1 y1 v1).1
  refine ⟨fun hi k => ?_, fun ha k => ?_⟩
  · simp only [addT, (a0.const hi k).1, (a0.const hi k).2, (a1.const hi k).1, (a1.const hi k).2, and_self]
  · simp only [addT]
    rw [affEval_add, affEval_add, (a0.aff ha k).1, (a0.aff ha k).2, (a1.aff ha k).1, (a1.aff ha k).2]
    exact ⟨rfl, rfl⟩

theorem minusT_exact (D : PertDomain X ι α) (m : Mode) (f : Full X ι κ α) (p : ι → α) (h : D.Point f.x p)
    (y : κ → α) (v : ExactAt m f p y) : ExactAt m (minusT D m f) p (fun k => - y k) := by
  have a := (tighten_exact D m false false f p h y v).1
  refine ⟨fun hi k => ?_, fun ha k => ?_⟩
  · simp only [minusT, (a.const hi k).1, (a.const hi k).2, and_self]
  · simp only [minusT]
    rw [affEval_neg, affEval_neg, (a.aff ha k).1, (a.aff ha k).2]
    exact ⟨rfl, rfl⟩

theorem maximumT_exact (D : PertDomain X ι α) (m : Mode) (eps : α) (g : κ → α) (f0 f1 : Full X ι κ α) (p : ι → α)
    (h0 : D.Point f0.x p) (h1 : D.Point f1.x p) (y0 y1 : κ → α) (v0 : ExactAt m f0 p y0) (v1 : ExactAt m f1 p y1) :
    ExactAt m (maximumT D m false eps g f0 f1) p (fun k => max (y0 k) (y1 k)) := by
  have x1 : D.Point (minusT D m f0).x p := by simpa [minusT] using h0
  have x2 : D.Point (addT D m f1 (minusT D m f0)).x p := by simpa [addT] using h1
  have a := addT_exact D m f1 (minusT D m f0) p h1 x1 _ _ v1 (minusT_exact D m f0 p h0 y0 v0)
  have b := reluT_exact D m eps .vSlope g _ p x2 _ a
  have c := addT_exact D m _ f0 p (by simpa [reluT] using x2) h0 _ _ b v0
  have e : (fun k => max (y0 k) (y1 k)) = fun k => max (y1 k + - y0 k) 0 + y0 k := by
    funext k; rw [max_add, max_comm]; simp
  rw [e]; exact c

theorem multiplyT_exact (D : PertDomain X ι α) (m : Mode) (f0 f1 : Full X ι κ α) (p : ι → α) (h0 : D.Point f0.x p)
    (h1 : D.Point f1.x p) (y0 y1 : κ → α) (v0 : ExactAt m f0 p y0) (v1 : ExactAt m f1 p y1) :
    ExactAt m (multiplyT D m f0 f1) p (fun k => y0 k * y1 k) := by
  have c0 := (tighten_exact D m true true f0 p h0 y0 v0).2 rfl
  have c1 := (tighten_exact D m true true f1 p h1 y1 v1).2 rfl
  have four : ∀ (a b c d : α) (w1 w2 w3 w4 : ι → α) (b1 b2 b3 b4 e : α),
      affEval (fun i => a * w1 i + b * w2 i + c * w3 i + d * w4 i) (a * b1 + b * b2 + c * b3 + d * b4 - e) p =
        a * affEval w1 b1 p + b * affEval w2 b2 p + c * affEval w3 b3 p + d * affEval w4 b4 p - e := by
    intro a b c d w1 w2 w3 w4 b1 b2 b3 b4 e
    rw [sub_eq_add_neg, affEval_add_const, affEval_add, affEval_add, affEval_add]
    simp only [affEval_smul]
    ring
  have pn : ∀ z t : α, max z 0 * t + min z 0 * t = z * t := fun z t => by rw [← add_mul, pos_add_neg]
  refine ⟨fun hi k => ?_, fun ha k => ?_⟩
  · simp only [multiplyT, hi, if_true, c0, c1, min_self, max_self]
    refine ⟨by ring, ?_⟩
    rw [mul_comm (y1 k), min_self]; ring
  · simp only [multiplyT, ha, if_true, c0, c1, tighten_wu, tighten_wl, tighten_bu, tighten_bl]
    rw [four, four]
    simp only [(v0.aff ha k).1, (v0.aff ha k).2, (v1.aff ha k).1, (v1.aff ha k).2]
    have := pn (y0 k) (y1 k); have := pn (y1 k) (y0 k)
    constructor <;> linarith

theorem MergeOp.forward_exact (D : PertDomain X ι α) (m : Mode) (eps : α) (op : MergeOp)
    (f0 f1 : Full X ι κ α) (p : ι → α) (h0 : D.Point f0.x p) (h1 : D.Point f1.x p) (y0 y1 : κ → α) (v0 : ExactAt m f0 p y0)
    (v1 : ExactAt m f1 p y1) : ExactAt m (op.forward D m eps f0 f1) p (fun k => op.eval (y0 k) (y1 k)) := by
  have a0 := (tighten_exact D m false true f0 p h0 y0 v0).1
  have a1 := (tighten_exact D m false true f1 p h1 y1 v1).1
  cases op with
  | add =>
    refine ⟨fun hi k => ?_, fun ha k => ?_⟩
    · simp [MergeOp.forward, MergeOp.eval, addLayerT, hi, a0.const hi k, a1.const hi k]
    · simp only [MergeOp.forward, MergeOp.eval, addLayerT, ha, if_true, List.map_cons, List.map_nil, List.sum_cons, List.sum_nil, add_zero]
      rw [affEval_add, affEval_add, (a0.aff ha k).1, (a0.aff ha k).2, (a1.aff ha k).1, (a1.aff ha k).2]
      exact ⟨rfl, rfl⟩
  | average =>
    have e : (((f0 :: [f1]).length : ℕ) : α) = 2 := by simp
    refine ⟨fun hi k => ?_, fun ha k => ?_⟩
    · simp only [MergeOp.forward, MergeOp.eval, averageLayerT, hi, if_true, List.map_cons, List.map_nil, List.sum_cons, List.sum_nil,
        add_zero, e, a0.const hi k, a1.const hi k, and_self]
    · simp only [MergeOp.forward, MergeOp.eval, averageLayerT, ha, if_true, List.map_cons, List.map_nil, List.sum_cons, List.sum_nil,
        add_zero, e]
      rw [affEval_div, affEval_div, affEval_add, affEval_add, (a0.aff ha k).1, (a0.aff ha k).2, (a1.aff ha k).1, (a1.aff ha k).2]
      exact ⟨rfl, rfl⟩
  | subtract =>
    have := addT_exact D m f0 (minusT D m f1) p h0 (by simpa [minusT] using h1) _ _ v0 (minusT_exact D m f1 p h1 y1 v1)
    simpa [MergeOp.forward, MergeOp.eval, subtractT, sub_eq_add_neg] using this
  | maximum => exact maximumT_exact D m eps _ f0 f1 p h0 h1 y0 y1 v0 v1
  | minimum =>
    have x0 : D.Point (minusT D m f0).x p := by simpa [minusT] using h0
    have x1 : D.Point (minusT D m f1).x p := by simpa [minusT] using h1
    have a := maximumT_exact D m eps (fun _ => 1) _ _ p x0 x1 _ _ (minusT_exact D m f0 p h0 y0 v0) (minusT_exact D m f1 p h1 y1 v1)
    have b := minusT_exact D m _ p (by simpa [maximumT, addT, reluT, subtractT] using x1) _ a
    have e : (fun k => MergeOp.minimum.eval (y0 k) (y1 k)) = fun k => - max (- y0 k) (- y1 k) := by
      funext k; rw [max_neg_neg]; simp [MergeOp.eval]
    rw [e]; exact b
  | multiply => exact multiplyT_exact D m f0 f1 p h0 h1 y0 y1 v0 v1

theorem Lay.forward_exact [Fintype κ] (D : PertDomain X ι α) (m : Mode) (eps : α) (slope : Slope) (l : Lay α κ κ')
    (f : Full X ι κ α) (p : ι → α) (hD : D.Point f.x p) (y : κ → α) (v : ExactAt m f p y) :
    ExactAt m (l.forward D m eps slope f) p (l.eval y) := by
  have a := (tighten_exact D m false true f p hD y v).1
  have hc := (tighten_exact D m true true f p hD y v).2 rfl
  cases l with
  | dense kernel bias =>
    refine ⟨fun hi o => ?_, fun ha o => ?_⟩
    · simp only [Lay.forward, denseT, hi, if_true, fun k => (a.const hi k).1, fun k => (a.const hi k).2, Lay.eval, taps_point,
        and_self]
    · simp only [Lay.forward, denseT, ha, if_true]
      rw [taps_aff, taps_aff]
      simp only [fun k => (a.aff ha k).1, fun k => (a.aff ha k).2, Lay.eval, taps_point, and_self]
  | linear L kernel bias =>
    have e : ∀ o, (Lay.linear L kernel bias).eval y o = (∑ t, kernel (L.kidx o t) * (L.src o t).elim 0 y) + bias o := by
      intro o
      simp only [Lay.eval]
      congr 1
      refine Finset.sum_congr rfl fun t _ => ?_
      cases L.src o t <;> rfl
    refine ⟨fun hi o => ?_, fun ha o => ?_⟩
    · have el : (f.tighten D m false true).lc = y := funext fun k => (a.const hi k).1
      have eu : (f.tighten D m false true).uc = y := funext fun k => (a.const hi k).2
      simp only [Lay.forward, linearLayerT, hi, if_true, LinIndex.apply, el, eu, taps_point, and_self, e]
    · simp only [Lay.forward, linearLayerT, ha, if_true, LinIndex.apply]
      rw [taps_aff, taps_aff, e]
      simp only [affEval_elim, fun k => (a.aff ha k).1, fun k => (a.aff ha k).2, taps_point, and_self]
  | relu gf gb => exact reluT_exact D m eps slope gf f p hD y v
  | batchNorm gamma beta mean sd =>
    have mix : ∀ k (z : α), max 0 (gamma k) * z + min 0 (gamma k) * z = gamma k * z := fun k z => by
      rw [← add_mul, max_comm, min_comm, pos_add_neg]
    refine ⟨fun hi k => ?_, fun ha k => ?_⟩
    · simp only [Lay.forward, batchNormT, hi, if_true, Lay.eval, (a.const hi k).1, (a.const hi k).2, mix, and_self]
    · simp only [Lay.forward, batchNormT, ha, if_true, Lay.eval]
      rw [batchNorm_aff, batchNorm_aff]
      simp only [(a.aff ha k).1, (a.aff ha k).2, mix, and_self]
  | reshape e =>
    refine ⟨fun hi o => ?_, fun ha o => ?_⟩
    · simp only [Lay.forward, reindexT, hi, if_true]; exact a.const hi _
    · simp only [Lay.forward, reindexT, ha, if_true]; exact a.aff ha _
  | skip => exact v

theorem Net.forward_exact (D : PertDomain X ι α) (m : Mode) (eps : α) (slope : Slope) (inp : Full X ι ι α) (p : ι → α)
    (hD : D.Point inp.x p) (hi : ExactAt m inp p p) {κ : Type} (n : Net α ι κ) :
    ExactAt m (n.forward D m eps slope inp) p (n.eval p) := by
  induction n with
  | input => exact hi
  | layer n l ih => exact l.forward_exact D m eps slope _ p (by rw [Net.forward_x]; exact hD) _ ih
  | merge op n0 n1 ih0 ih1 =>
    exact op.forward_exact D m eps _ _ p (by rw [Net.forward_x]; exact hD) (by rw [Net.forward_x]; exact hD) _ _ ih0 ih1

/-! ### Backward -/

theorem Back.ExactAt.holds [Fintype κ] {b : Back κ κ' α} {y : κ → α} {t : κ' → α} (h : b.ExactAt y t) : b.Holds y t :=
  fun k => ⟨(h k).1.le, (h k).2.ge⟩

theorem exactAt_of_exact [Fintype κ] {b : Back κ κ' α} {t : (κ → α) → κ' → α} (h : b.Exact t) (y : κ → α) : b.ExactAt y (t y) :=
  fun k => ⟨by rw [← h.1, ← h.2.1]; exact h.2.2 y k, h.2.2 y k⟩

theorem merge_exactAt [Fintype κ] (prev : Back ι κ α) (b : Back κ ν α) (x : ι → α) (y : κ → α) (t : ν → α)
    (h1 : prev.ExactAt x y) (h2 : b.ExactAt y t) : (mergeWithPrevious prev b).ExactAt x t := by
  have pn : ∀ c : κ → α, ∑ k, (max (c k) 0 * y k + min (c k) 0 * y k) = ∑ k, c k * y k := fun c =>
    Finset.sum_congr rfl fun k _ => by rw [← add_mul, pos_add_neg]
  intro n
  constructor
  · rw [← (h2 n).1]
    simp only [mergeWithPrevious]
    rw [affEval_add_const, affEval_add, affEval_sum Finset.univ (fun k i => prev.wl i k * max (b.wl k n) 0),
      affEval_sum Finset.univ (fun k i => prev.wu i k * min (b.wl k n) 0), ← Finset.sum_add_distrib, affEval, ← pn]
    congr 1
    refine Finset.sum_congr rfl fun k _ => ?_
    conv_rhs => rw [← (h1 k).1]
    conv_rhs => arg 2; rw [(h1 k).1, ← (h1 k).2]
    rw [← affEval_smul, ← affEval_smul]
    simp only [mul_comm]
  · rw [← (h2 n).2]
    simp only [mergeWithPrevious]
    rw [affEval_add_const, affEval_add, affEval_sum Finset.univ (fun k i => prev.wu i k * max (b.wu k n) 0),
      affEval_sum Finset.univ (fun k i => prev.wl i k * min (b.wu k n) 0), ← Finset.sum_add_distrib, affEval, ← pn]
    congr 1
    refine Finset.sum_congr rfl fun k _ => ?_
    conv_rhs => rw [← (h1 k).1]
    conv_rhs => arg 1; rw [(h1 k).1, ← (h1 k).2]
    rw [← affEval_smul, ← affEval_smul]
    simp only [mul_comm]

theorem Lay.backward_exact [Fintype κ] [DecidableEq κ] (D : PertDomain X ι α) (m : Mode) (eps : α) (slope : Slope)
    (l : Lay α κ κ') (f : Full X ι κ α) (p : ι → α) (hD : D.Point f.x p) (y : κ → α) (v : ExactAt m f p y) :
    (l.backward D m eps slope f).ExactAt y (l.eval y) := by
  cases l with
  | relu gf gb =>
    have hc := (tighten_exact D m true true f p hD y v).2 rfl
    intro k
    simp only [Lay.backward, backwardRelu, Back.ofDiag, hc, diagLike_sum]
    exact hullRelu_point eps slope (gb k) (y k)
  | dense kernel bias => exact exactAt_of_exact (exact_of_holds _ _ rfl rfl (holds_dense kernel bias)) y
  | linear L kernel bias => exact exactAt_of_exact (exact_of_holds _ _ rfl rfl (holds_conv L kernel bias)) y
  | batchNorm gamma beta mean sd => exact exactAt_of_exact (exact_of_holds _ _ rfl rfl (holds_batchNorm gamma beta mean sd)) y
  | reshape e => exact exactAt_of_exact (exact_of_holds _ _ rfl rfl (holds_reindex e)) y
  | skip => exact exactAt_of_exact (exact_of_holds _ _ rfl rfl holds_identity) y

theorem exactAt_inst (i1 i2 : Fintype κ) (b : Back κ κ' α) (y : κ → α) (t : κ' → α)
    (h : @Back.ExactAt κ κ' α _ i1 b y t) : @Back.ExactAt κ κ' α _ i2 b y t := by
  rw [Subsingleton.elim i2 i1]; exact h

theorem fuse_exactAt (m : Mode) (inp : Full X ι ι α) (p : ι → α) (hi : ExactAt m inp p p) (b : Back ι ν α) (t : ν → α)
    (h : b.ExactAt p t) : (fuse m inp b).ExactAt p t := by
  unfold fuse
  split
  · rename_i ha
    exact merge_exactAt _ _ p p t (fun k => hi.aff ha k) h
  · exact h

theorem convert2BackwardMode_exact (D : PertDomain X ι α) (stack : (ι → α) → (ι → α) → X) (m : Mode)
    (inp : Full X ι ι α) (p : ι → α) (hD : D.Point inp.x p) (hst : m = .ibp → D.Point (stack inp.lc inp.uc) p) (b : Back ι ν α)
    (t : ν → α) (h : b.ExactAt p t) : ExactAt m (convert2BackwardMode D stack m inp b) p t := by
  have hx : D.Point (if m = .ibp then stack inp.lc inp.uc else inp.x) p := by
    split
    · rename_i hm; exact hst hm
    · exact hD
  refine ⟨fun hi k => ?_, fun ha k => ?_⟩
  · simp only [convert2BackwardMode, hi, if_true]
    rw [(hx _ _).1, (hx _ _).2]
    exact h k
  · simp only [convert2BackwardMode, ha, if_true]
    exact h k

variable [DecidableEq ι]

theorem CrownCfg.node_exactAt (c : CrownCfg X ι α) (p : ι → α) (hD : c.D.Point c.inp.x p)
    (hst : c.m = .ibp → c.D.Point (c.stack c.inp.lc c.inp.uc) p) (hi : ExactAt c.m c.inp p p) {κ : Type} (n : Net α ι κ)
    (hc : n.Chain) :
    (∃ b, (c.node n).first = .ok b ∧ b.ExactAt p (n.eval p)) ∧
    ∀ [Fintype κ], ∀ (ν : Type) (b : Back κ ν α) (t : ν → α), b.ExactAt (n.eval p) t →
      ∃ b', (c.node n).next ν b = .ok b' ∧ b'.ExactAt p t := by
  have hid : (Back.identity : Back ι ι α).ExactAt p p := exactAt_of_exact exact_identity p
  induction n with
  | input =>
    have key := fun (ν : Type) (b : Back ι ν α) t h => fuse_exactAt c.m c.inp p hi _ t (merge_exactAt Back.identity b p p t hid h)
    refine ⟨⟨_, rfl, fuse_exactAt c.m c.inp p hi _ _ hid⟩, ?_⟩
    intro inst ν b t h
    exact ⟨_, rfl, key ν b t (exactAt_inst _ _ _ _ _ h)⟩
  | merge op n0 n1 _ _ => exact absurd hc (by simp [Net.Chain])
  | @layer κ₁ κ₂ _ _ _ n l ih =>
    obtain ⟨⟨b0, hb0, hh0⟩, hnext⟩ := ih hc
    have hchild : ∃ f, c.childInput n (c.node n) = .ok f ∧ c.D.Point f.x p ∧ ExactAt c.m f p (n.eval p) := by
      unfold CrownCfg.childInput
      cases hu : c.useForward with
      | true =>
        exact ⟨_, if_pos rfl, by rw [Net.forward_x]; exact hD, Net.forward_exact c.D c.m c.eps c.slope c.inp p hD hi n⟩
      | false =>
        refine ⟨convert2BackwardMode c.D c.stack c.m c.inp b0, by simp [hb0, Except.map], ?_, ?_⟩
        · simp only [convert2BackwardMode]; split <;> [exact hD; (rename_i hm; simpa [hm] using hD)]
        · exact convert2BackwardMode_exact c.D c.stack c.m c.inp p hD hst b0 _ hh0
    obtain ⟨f, hf, hfx, hfv⟩ := hchild
    have hl := l.backward_exact c.D c.m c.eps c.slope f p hfx _ hfv
    constructor
    · obtain ⟨b', h1, h2⟩ := hnext κ₂ _ _ hl
      refine ⟨b', ?_, h2⟩
      simp only [CrownCfg.node, hf, Except.map, bind, Except.bind]
      exact h1
    · have key := fun (ν : Type) (b : Back κ₂ ν α) t h =>
        hnext ν _ t (merge_exactAt _ b (n.eval p) (l.eval (n.eval p)) t hl h)
      intro inst ν b t h
      obtain ⟨b', h1, h2⟩ := key ν b t (exactAt_inst _ _ _ _ _ h)
      refine ⟨b', ?_, h2⟩
      simp only [CrownCfg.node, hf, Except.map, bind, Except.bind]
      exact h1

end

end Decomon
