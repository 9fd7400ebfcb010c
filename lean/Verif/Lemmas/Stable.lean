import Verif.Lemmas.Spread
import Verif.SpecStable

/-! Helper lemmas on regions where no activation switches. -/

namespace Decomon

section Scalar
variable {α : Type} [Field α] [LinearOrder α] [IsStrictOrderedRing α]

/-- The hull of a ReLU that keeps its sign is the ReLU. -/
theorem hull_stable (eps : α) (s : Slope) (g : α) {u l y : α} (hl : l ≤ y) (h : 0 ≤ l ∨ u ≤ 0 ∧ y ≤ 0) :
    (linearHullRelu eps s g u l).wu * y + (linearHullRelu eps s g u l).bu = max y 0 ∧
      (linearHullRelu eps s g u l).wl * y + (linearHullRelu eps s g u l).bl = max y 0 := by
  rcases le_or_gt 0 l with h0 | h0
  · rw [hullRelu_linear s h0, max_eq_left (h0.trans hl)]; simp
  · rcases h with h | ⟨h1, h2⟩
    · exact absurd h (not_le.2 h0)
    · rw [hullRelu_dead s h1 h0, max_eq_right h2]; simp

end Scalar

section Pin
variable {X ι κ κ' α : Type} [Fintype ι] [DecidableEq ι] [Field α] [LinearOrder α] [IsStrictOrderedRing α]

/-- The affine bounds of `f` are the function `y` on `S`. -/
structure Pin (m : Mode) (S : Set (ι → α)) (f : Full X ι κ α) (y : (ι → α) → κ → α) : Prop where
  valid : ∀ p ∈ S, Valid m false f p (y p)
  eq : ∀ p ∈ S, ∀ k, f.toBack.evalU p k = y p k ∧ f.toBack.evalL p k = y p k

/-- The tightened bounds of `f` are values of `y` on `S`. -/
structure Tip (D : PertDomain X ι α) (m : Mode) (S : Set (ι → α)) (f : Full X ι κ α) (y : (ι → α) → κ → α) : Prop where
  valid : ∀ p ∈ S, ∀ k, (f.tighten D m true true).lc k ≤ y p k ∧ y p k ≤ (f.tighten D m true true).uc k
  tight : ∀ k, (∃ p ∈ S, (f.tighten D m true true).uc k = y p k) ∧ ∃ p ∈ S, (f.tighten D m true true).lc k = y p k

variable {D : PertDomain X ι α} {m : Mode} {S : Set (ι → α)} {f f0 f1 : Full X ι κ α} {y y0 y1 : (ι → α) → κ → α}

omit [DecidableEq ι] in
theorem Pin.tip (h : Pin m S f y) (hm : getAffine m = true) (hS : D.Sound f.x S) (hD : Attains D f.x S) : Tip D m S f y := by
  have hv := fun p hp k => tighten_const D m false f S hS p hp (y p) (h.valid p hp) k
  refine ⟨hv, fun k => ?_⟩
  obtain ⟨p, hp, e⟩ := (hD (fun i => f.wl i k) (f.bl k)).2
  obtain ⟨q, hq, e'⟩ := (hD (fun i => f.wu i k) (f.bu k)).1
  have ep : D.getLower f.x (fun i => f.wl i k) (f.bl k) = y p k := by rw [← e]; exact (h.eq p hp k).2
  have eq : D.getUpper f.x (fun i => f.wu i k) (f.bu k) = y q k := by rw [← e']; exact (h.eq q hq k).1
  cases m with
  | ibp => exact absurd hm (by decide)
  | affine => exact ⟨⟨q, hq, eq⟩, p, hp, ep⟩
  | hybrid =>
    refine ⟨⟨q, hq, le_antisymm ?_ (hv q hq k).2⟩, p, hp, le_antisymm (hv p hp k).1 ?_⟩
    · rw [← eq]; exact min_le_right _ _
    · rw [← ep]; exact le_max_right _ _

omit [DecidableEq ι] in
/-- A neuron that keeps its sign is recognised. -/
theorem Tip.sign (h : Tip D m S f y) {k : κ} (hk : (∀ p ∈ S, 0 ≤ y p k) ∨ ∀ p ∈ S, y p k ≤ 0) :
    0 ≤ (f.tighten D m true true).lc k ∨ (f.tighten D m true true).uc k ≤ 0 ∧ ∀ p ∈ S, y p k ≤ 0 := by
  obtain ⟨⟨q, hq, e⟩, p, hp, e'⟩ := h.tight k
  rcases hk with hk | hk
  · exact .inl (e' ▸ hk p hp)
  · exact .inr ⟨e ▸ hk q hq, hk⟩

omit [DecidableEq ι] in
theorem Tip.sliverFree (h : Tip D m S f y) (eps : α) (hk : ∀ k, (∀ p ∈ S, 0 ≤ y p k) ∨ ∀ p ∈ S, y p k ≤ 0) : SliverFree D m eps f := by
  intro _ k ⟨h1, h2, _⟩
  rcases h.sign (hk k) with h3 | ⟨h3, -⟩
  · exact absurd h3 (not_le.2 h1)
  · exact absurd h3 (not_le.2 h2)

/-- A ReLU that keeps its sign. -/
theorem Pin.relu (h : Pin m S f y) (hm : getAffine m = true) (hS : D.Sound f.x S) (hD : Attains D f.x S) (eps : α) (he : 0 < eps) (s : Slope)
    (g : κ → α) (hg : ∀ k, 0 ≤ g k ∧ g k ≤ 1) (hk : ∀ k, (∀ p ∈ S, 0 ≤ y p k) ∨ ∀ p ∈ S, y p k ≤ 0) :
    Pin m S (reluT D m false eps s g f) (fun p k => max (y p k) 0) := by
  have ht := h.tip hm hS hD
  refine ⟨fun p hp => C06_relu_valid_partial D m false eps he s g hg f S hS (ht.sliverFree eps hk) p hp _ (h.valid p hp), fun p hp k => ?_⟩
  have a := hull_stable eps s (g k) (ht.valid p hp k).1 ((ht.sign (hk k)).imp_right fun t => ⟨t.1, t.2 p hp⟩)
  have b := h.eq p hp k
  simp only [Full.toBack, Back.evalU, Back.evalL] at b
  simp only [reluT, Full.toBack, Back.evalU, Back.evalL, hm, if_true, tighten_wu, tighten_bu, tighten_wl, tighten_bl]
  rw [affEval_add_const, affEval_smul, affEval_add_const, affEval_smul, b.1, b.2]
  exact a

omit [DecidableEq ι] in
theorem Pin.minus (h : Pin m S f y) : Pin m S (minusT D m f) (fun p k => - y p k) := by
  refine ⟨fun p hp => valid_minus D m false f p _ (h.valid p hp), fun p hp k => ?_⟩
  have a := h.eq p hp k
  simp only [minusT, Full.toBack, Back.evalU, Back.evalL, affEval_neg, tighten_wu, tighten_bu, tighten_wl, tighten_bl] at *
  exact ⟨congrArg Neg.neg a.2, congrArg Neg.neg a.1⟩

omit [DecidableEq ι] in
theorem Pin.add (h0 : Pin m S f0 y0) (h1 : Pin m S f1 y1) (hS0 : D.Sound f0.x S) (hS1 : D.Sound f1.x S) :
    Pin m S (addT D m f0 f1) (fun p k => y0 p k + y1 p k) := by
  refine ⟨fun p hp => valid_add D m false f0 f1 S hS0 hS1 p hp _ _ (h0.valid p hp) (h1.valid p hp), fun p hp k => ?_⟩
  have a := h0.eq p hp k
  have b := h1.eq p hp k
  simp only [addT, Full.toBack, Back.evalU, Back.evalL, affEval_add, tighten_wu, tighten_bu, tighten_wl, tighten_bl] at *
  rw [a.1, a.2, b.1, b.2]
  exact ⟨rfl, rfl⟩

omit [DecidableEq ι] in
theorem Pin.congr (h : Pin m S f y) (e : ∀ p ∈ S, ∀ k, y p k = y0 p k) : Pin m S f y0 := by
  refine ⟨fun p hp => ?_, fun p hp k => ?_⟩
  · rw [← show y p = y0 p from funext (e p hp)]; exact h.valid p hp
  · rw [← e p hp k]; exact h.eq p hp k

theorem Pin.maximum (h0 : Pin m S f0 y0) (h1 : Pin m S f1 y1) (hm : getAffine m = true) (hS0 : D.Sound f0.x S) (hS1 : D.Sound f1.x S)
    (hD : Attains D f1.x S) (eps : α) (he : 0 < eps)
    (hk : ∀ k, (∀ p ∈ S, y0 p k ≤ y1 p k) ∨ ∀ p ∈ S, y1 p k ≤ y0 p k) :
    Pin m S (maximumT D m false eps (fun _ => 1) f0 f1) (fun p k => max (y0 p k) (y1 p k)) := by
  have hs : Pin m S (subtractT D m f1 f0) (fun p k => y1 p k + - y0 p k) := h1.add (D := D) (h0.minus (D := D)) hS1 (by simpa [minusT] using hS0)
  have hr := hs.relu (D := D) hm (by simpa [subtractT, addT] using hS1) (by simpa [subtractT, addT] using hD) eps he .vSlope (fun _ => 1)
    (fun _ => ⟨zero_le_one, le_rfl⟩) fun k => (hk k).imp (fun h p hp => by have := h p hp; linarith) fun h p hp => by have := h p hp; linarith
  refine (hr.add (D := D) h0 (by simpa [reluT, subtractT, addT] using hS1) hS0).congr fun p hp k => ?_
  rcases le_total (y0 p k) (y1 p k) with h | h
  · rw [max_eq_left (by linarith), max_eq_right h]; ring
  · rw [max_eq_right (by linarith), max_eq_left h]; ring

theorem Pin.merge (h0 : Pin m S f0 y0) (h1 : Pin m S f1 y1) (hm : getAffine m = true) (hS0 : D.Sound f0.x S) (hS1 : D.Sound f1.x S)
    (hD : Attains D f1.x S) (eps : α) (he : 0 < eps) (op : MergeOp) (hk : op.KeepsOrder S y0 y1) :
    Pin m S (op.forward D m eps f0 f1) (fun p k => op.eval (y0 p k) (y1 p k)) := by
  cases op with
  | add =>
    refine ⟨fun p hp => MergeOp.forward_valid D m eps he .add f0 f1 S hS0 hS1 trivial p hp _ _ (h0.valid p hp) (h1.valid p hp), fun p hp k => ?_⟩
    have a := h0.eq p hp k
    have b := h1.eq p hp k
    simp only [MergeOp.forward, addLayerT, hm, if_true, List.map_cons, List.map_nil, List.sum_cons, List.sum_nil, add_zero, Full.toBack,
      Back.evalU, Back.evalL, affEval_add, tighten_wu, tighten_bu, tighten_wl, tighten_bl] at *
    rw [a.1, a.2, b.1, b.2]
    exact ⟨rfl, rfl⟩
  | average =>
    refine ⟨fun p hp => MergeOp.forward_valid D m eps he .average f0 f1 S hS0 hS1 trivial p hp _ _ (h0.valid p hp) (h1.valid p hp), fun p hp k => ?_⟩
    have a := h0.eq p hp k
    have b := h1.eq p hp k
    simp only [MergeOp.forward, averageLayerT, hm, if_true, List.map_cons, List.map_nil, List.sum_cons, List.sum_nil, add_zero, Full.toBack,
      Back.evalU, Back.evalL, affEval_div, affEval_add, tighten_wu, tighten_bu, tighten_wl, tighten_bl, List.length_cons, List.length_nil,
      MergeOp.eval] at *
    rw [a.1, a.2, b.1, b.2]
    push_cast
    norm_num
  | subtract =>
    refine (h0.add (D := D) (h1.minus (D := D)) hS0 (by simpa [minusT] using hS1)).congr fun p _ k => ?_
    simp only [MergeOp.eval]; ring
  | maximum => exact h0.maximum h1 hm hS0 hS1 hD eps he hk
  | minimum =>
    refine (((h0.minus (D := D)).maximum (D := D) (h1.minus (D := D)) hm (by simpa [minusT] using hS0) (by simpa [minusT] using hS1)
      (by simpa [minusT] using hD) eps he fun k => (hk k).symm.imp (fun h p hp => neg_le_neg (h p hp)) fun h p hp => neg_le_neg (h p hp)).minus
      (D := D)).congr fun p _ k => ?_
    simp only [MergeOp.eval, max_neg_neg, neg_neg]
  | multiply => exact hk.elim

/-- A layer whose activations keep their sign. -/
theorem Pin.layer [Fintype κ] (h : Pin m S f y) (hm : getAffine m = true) (hS : D.Sound f.x S) (hD : Attains D f.x S) (eps : α) (he : 0 < eps)
    (s : Slope) (l : Lay α κ κ') (hl : l.WF) (hk : l.KeepsSign (y '' S)) : Pin m S (l.forward D m eps s f) (fun p => l.eval (y p)) := by
  have key : l.NoRelu → _ := fun hr => by
    have hsl : l.SliverOK D m eps f := by cases l <;> first | trivial | exact hr.elim
    refine (⟨fun p hp => l.forward_valid D m eps he s hl f S hS hsl p hp _ (h.valid p hp), fun p hp k => ?_⟩ :
      Pin m S (l.forward D m eps s f) (fun p => l.eval (y p)))
    have e1 : f.toBack.evalU p = y p := funext fun k => (h.eq p hp k).1
    have e2 : f.toBack.evalL p = y p := funext fun k => (h.eq p hp k).2
    rw [(forward_at D m hm eps s l hr f p k).1, (forward_at D m hm eps s l hr f p k).2, e1, e2]
    have w := l.width_spread D eps s hl (fun _ => 0) (fun _ => le_rfl) (constFull f.x (y p) (y p)) (fun t => by simp [constFull]) k
    have w0 : l.spread (fun _ => (0 : α)) k = 0 := by
      cases l <;> simp only [Lay.spread, mul_zero, zero_div, abs_zero, Finset.sum_const_zero]
      refine Finset.sum_eq_zero fun t _ => ?_
      rw [show ∀ o : Option κ, (o.elim (0 : α) fun _ => 0) = 0 from fun o => by cases o <;> rfl, mul_zero]
    have hs : l.SliverOK pointDomain .ibp eps (constFull () (y p) (y p)) := by cases l <;> first | trivial | exact hr.elim
    have a := (l.forward_valid pointDomain .ibp eps he s hl (constFull () (y p) (y p)) Set.univ pointDomain_sound hs (fun i => i.elim0) trivial
      (y p) ⟨fun _ k => ⟨le_rfl, le_rfl⟩, fun h => absurd h (by decide), fun h => absurd h (by decide)⟩).const rfl k
    have t := tighter_layer (D := pointDomain) (D' := D) (m := .ibp) rfl eps s s l hl (f := constFull () (y p) (y p))
      (g := constFull f.x (y p) (y p)) (fun _ => ⟨le_rfl, le_rfl⟩) k
    rw [w0] at w
    constructor <;> linarith [t.1, t.2, a.1, a.2]
  cases l with
  | relu gf gb =>
    exact h.relu hm hS hD eps he s gf (fun k => (hl k).1) fun k => (hk k).imp (fun t p hp => t _ ⟨p, hp, rfl⟩) fun t p hp => t _ ⟨p, hp, rfl⟩
  | _ => exact key trivial

/-- The backward bounds of a layer whose activations keep their sign. -/
theorem Tip.backward [Fintype κ] [DecidableEq κ] (h : Tip D m S f y) (eps : α) (he : 0 < eps) (s : Slope) (l : Lay α κ κ') (hl : l.WF)
    (hk : l.KeepsSign (y '' S)) (p : ι → α) (hp : p ∈ S) (k : κ') :
    (l.backward D m eps s f).evalU (y p) k = l.eval (y p) k ∧ (l.backward D m eps s f).evalL (y p) k = l.eval (y p) k := by
  cases l with
  | relu gf gb =>
    simp only [Lay.backward, backwardRelu, evalU_diag]
    exact hull_stable eps s (gb k) (h.valid p hp k).1 ((h.sign ((hk k).imp (fun t p hp => t _ ⟨p, hp, rfl⟩) fun t p hp => t _ ⟨p, hp, rfl⟩)).imp_right
      fun t => ⟨t.1, t.2 p hp⟩)
  | dense kernel bias => exact noRelu_backward D m eps he s (.dense kernel bias) trivial hl f _ k
  | linear L kernel bias => exact noRelu_backward D m eps he s (.linear L kernel bias) trivial hl f _ k
  | batchNorm gamma beta mean sd => exact noRelu_backward D m eps he s (.batchNorm gamma beta mean sd) trivial hl f _ k
  | reshape e => exact noRelu_backward D m eps he s (.reshape e) trivial hl f _ k
  | skip => exact noRelu_backward D m eps he s (Lay.skip (κ := κ)) (by trivial) hl f _ k

/-- The forward affine bounds of a network. -/
theorem net_pin (hm : getAffine m = true) (eps : α) (he : 0 < eps) (s : Slope) (inp : Full X ι ι α) (hS : D.Sound inp.x S)
    (hD : Attains D inp.x S) (hi : Pin m S inp fun p => p) (n : Net α ι κ) (hn : n.WF) (hk : n.Stable S) :
    Pin m S (n.forward D m eps s inp) fun p => n.eval p := by
  induction n with
  | input => exact hi
  | layer n l ih =>
    exact (ih hn.1 hk.1).layer hm (by rw [Net.forward_x]; exact hS) (by rw [Net.forward_x]; exact hD) eps he s l hn.2 hk.2
  | merge op n0 n1 ih0 ih1 =>
    exact (ih0 hn.1 hk.1).merge (ih1 hn.2 hk.2.1) hm (by rw [Net.forward_x]; exact hS) (by rw [Net.forward_x]; exact hS)
      (by rw [Net.forward_x]; exact hD) eps he op hk.2.2

end Pin

section Crown
variable {X ι α : Type} [fi : Fintype ι] [DecidableEq ι] [Field α] [LinearOrder α] [IsStrictOrderedRing α]

/-- The conversion of exact backward bounds. -/
theorem convert_pin {κ : Type} (C : CrownCfg X ι α) (S : Set (ι → α)) (hS : C.D.Sound C.inp.x S) (hD : Attains C.D C.inp.x S)
    (hsS : C.m = .ibp → C.D.Sound (C.stack C.inp.lc C.inp.uc) S) (hst : C.m = .ibp → Attains C.D (C.stack C.inp.lc C.inp.uc) S)
    (r : Back ι κ α) (y : (ι → α) → κ → α) (h : ∀ p ∈ S, ∀ k, r.evalU p k = y p k ∧ r.evalL p k = y p k) :
    Tip C.D C.m S (convert2BackwardMode C.D C.stack C.m C.inp r) y ∧
      (∀ p ∈ S, Valid C.m false (convert2BackwardMode C.D C.stack C.m C.inp r) p (y p)) ∧
      (getAffine C.m = true → Pin C.m S (convert2BackwardMode C.D C.stack C.m C.inp r) y) := by
  have hv : ∀ p ∈ S, Valid C.m false (convert2BackwardMode C.D C.stack C.m C.inp r) p (y p) := fun p hp =>
    convert2BackwardMode_valid C.D C.stack C.m C.inp S (fun _ => hS) hsS p hp r _ fun k => ⟨(h p hp k).2.le, (h p hp k).1.ge⟩
  have hx : (convert2BackwardMode C.D C.stack C.m C.inp r).x = C.inp.x := by simp only [convert2BackwardMode]; split_ifs <;> rfl
  have hp : getAffine C.m = true → Pin C.m S (convert2BackwardMode C.D C.stack C.m C.inp r) y := fun hm => by
    refine ⟨hv, fun p hp k => ?_⟩
    simp only [convert2BackwardMode, hm, if_true, Full.toBack]
    exact h p hp k
  refine ⟨?_, hv, hp⟩
  by_cases hm : getAffine C.m = true
  · exact (hp hm).tip hm (by rw [hx]; exact hS) (by rw [hx]; exact hD)
  · have hm : C.m = .ibp := by cases h : C.m <;> first | rfl | exact absurd (by rw [h]; rfl) hm
    refine ⟨fun p hp k => tighten_const C.D C.m false _ S (by rw [hx]; exact hS) p hp _ (hv p hp) k, fun k => ?_⟩
    obtain ⟨p, hp, e⟩ := (hst hm (fun i => r.wl i k) (r.bl k)).2
    obtain ⟨q, hq, e'⟩ := (hst hm (fun i => r.wu i k) (r.bu k)).1
    refine ⟨⟨q, hq, ?_⟩, p, hp, ?_⟩
    · rw [← (h q hq k).1, hm, tighten_ibp_eq]
      simp only [convert2BackwardMode, if_true, show getIbp .ibp = true from rfl]
      exact e'.symm
    · rw [← (h p hp k).2, hm, tighten_ibp_eq]
      simp only [convert2BackwardMode, if_true, show getIbp .ibp = true from rfl]
      exact e.symm

/-- Merging at a point where the first bounds are exact. -/
theorem merge_pin {κ ν : Type} [Fintype κ] (F : Back ι κ α) (b : Back κ ν α) (p : ι → α) (v : κ → α)
    (h : ∀ k, F.evalU p k = v k ∧ F.evalL p k = v k) (n : ν) :
    (mergeWithPrevious F b).evalU p n = b.evalU v n ∧ (mergeWithPrevious F b).evalL p n = b.evalL v n := by
  have ho : ∀ k, F.evalL p k ≤ F.evalU p k := fun k => by rw [(h k).1, (h k).2]
  obtain ⟨v1, h1, e1⟩ := merge_upper_at F b p ho n
  obtain ⟨v2, h2, e2⟩ := merge_lower_at F b p ho n
  have q1 : v1 = v := funext fun k => le_antisymm ((h1 k).2.trans (h k).1.le) ((h k).2.ge.trans (h1 k).1)
  have q2 : v2 = v := funext fun k => le_antisymm ((h2 k).2.trans (h k).1.le) ((h k).2.ge.trans (h2 k).1)
  exact ⟨by rw [e1, q1], by rw [e2, q2]⟩

/-- The backward bounds of a chain. -/
theorem node_pin (C : CrownCfg X ι α) (he : 0 < C.eps) (S : Set (ι → α)) (hS : C.D.Sound C.inp.x S) (hD : Attains C.D C.inp.x S)
    (hsS : C.m = .ibp → C.D.Sound (C.stack C.inp.lc C.inp.uc) S) (hst : C.m = .ibp → Attains C.D (C.stack C.inp.lc C.inp.uc) S)
    (hi : getAffine C.m = true → Pin C.m S C.inp fun p => p) (hu : C.m = .ibp → C.useForward = false)
    {κ : Type} (n : Net α ι κ) (hc : n.Chain) (hn : n.WF) (hk : n.Stable S) : ∀ _ : Fintype κ,
    (∃ r, (C.node n).first = .ok r ∧ ∀ p ∈ S, ∀ k, r.evalU p k = n.eval p k ∧ r.evalL p k = n.eval p k) ∧
      ∀ (ν : Type) (b : Back κ ν α), ∃ r, (C.node n).next ν b = .ok r ∧ ∀ p ∈ S, ∀ k,
        r.evalU p k = b.evalU (n.eval p) k ∧ r.evalL p k = b.evalL (n.eval p) k := by
  induction n with
  | input =>
    intro ft
    obtain rfl : ft = fi := Subsingleton.elim _ _
    have key : ∀ (ν : Type) (b : Back ι ν α), ∀ p ∈ S, ∀ k, (fuse C.m C.inp (mergeWithPrevious Back.identity b)).evalU p k = b.evalU p k ∧
        (fuse C.m C.inp (mergeWithPrevious Back.identity b)).evalL p k = b.evalL p k := by
      intro ν b p hp k
      rw [merge_identity_left]
      by_cases hm : getAffine C.m = true
      · rw [fuse, if_pos hm]
        exact merge_pin C.inp.toBack b p p ((hi hm).eq p hp) k
      · rw [fuse, if_neg hm]
        exact ⟨rfl, rfl⟩
    refine ⟨⟨_, rfl, fun p hp k => ?_⟩, fun ν b => ⟨_, rfl, key ν b⟩⟩
    have a := key ι Back.identity p hp k
    rw [merge_identity_left] at a
    rw [a.1, a.2]
    simp [Back.identity, Back.evalU, Back.evalL, affEval, Net.eval, diagLike]
  | @layer κ κ' fk dk fk' n lay ih =>
    intro ft
    obtain rfl : ft = fk' := Subsingleton.elim _ _
    obtain ⟨⟨r0, a1, a2⟩, a3⟩ := ih hc hn.1 hk.1 fk
    have hch : ∃ f, C.childInput n (C.node n) = .ok f ∧ Tip C.D C.m S f fun p => n.eval p := by
      by_cases huf : C.useForward = true
      · have hm : getAffine C.m = true := by
          cases h : C.m <;> first | rfl | exact absurd huf (by rw [hu h]; decide)
        exact ⟨_, by rw [CrownCfg.childInput, if_pos huf], (net_pin hm C.eps he C.slope C.inp hS hD (hi hm) n hn.1 hk.1).tip hm
          (by rw [Net.forward_x]; exact hS) (by rw [Net.forward_x]; exact hD)⟩
      · exact ⟨_, by rw [CrownCfg.childInput, if_neg huf, a1]; rfl, (convert_pin C S hS hD hsS hst r0 _ a2).1⟩
    obtain ⟨f, c1, c2⟩ := hch
    have hb := fun p hp k => c2.backward C.eps he C.slope lay hn.2 hk.2 p hp k
    refine ⟨?_, fun ν b => ?_⟩
    · obtain ⟨r, d1, d2⟩ := a3 _ (lay.backward C.D C.m C.eps C.slope f)
      refine ⟨r, ?_, fun p hp k => ⟨(d2 p hp k).1.trans (hb p hp k).1, (d2 p hp k).2.trans (hb p hp k).2⟩⟩
      simp only [CrownCfg.node, c1]; exact d1
    · obtain ⟨r, d1, d2⟩ := a3 ν (mergeWithPrevious (lay.backward C.D C.m C.eps C.slope f) b)
      refine ⟨r, ?_, fun p hp k => ?_⟩
      · simp only [CrownCfg.node, c1]; exact d1
      · have e := merge_pin (lay.backward C.D C.m C.eps C.slope f) b (n.eval p) (lay.eval (n.eval p)) (hb p hp) k
        exact ⟨(d2 p hp k).1.trans e.1, (d2 p hp k).2.trans e.2⟩
  | merge op n0 n1 => exact hc.elim

end Crown

end Decomon
