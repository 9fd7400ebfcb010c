import Verif.Model.Dc
import Verif.SpecDc
import Verif.Props.Network
import Verif.Props.Pooling

/-! Theorems about the difference of convex functions (C112). -/

namespace Decomon

section
variable {X ι κ κ' α : Type} [Field α] [LinearOrder α] [IsStrictOrderedRing α]

theorem BoundsEq.tighten {f f' : Full X ι κ α} (h : BoundsEq f f') (D : PertDomain X ι α) (m : Mode) (c t : Bool) :
    BoundsEq (f.tighten D m c t) (f'.tighten D m c t) := by
  obtain ⟨h1, h2, h3, h4, h5, h6, h7⟩ := h
  unfold Full.tighten
  split
  · split <;> constructor <;> simp only [h1, h2, h3, h4, h5, h6, h7]
  · exact ⟨h1, h2, h3, h4, h5, h6, h7⟩

theorem BoundsEq.dense [Fintype κ] {f f' : Full X ι κ α} (h : BoundsEq f f') (D : PertDomain X ι α) (m : Mode) (dc dc' : Bool) (kernel : κ → κ' → α)
    (bias : κ' → α) : BoundsEq (denseT D m dc kernel bias f) (denseT D m dc' kernel bias f') := by
  obtain ⟨h1, h2, h3, h4, h5, h6, h7⟩ := h.tighten D m false true
  constructor <;> simp only [denseT, h1, h2, h3, h4, h5, h6, h7]

theorem BoundsEq.linear {T Q : Type} [Fintype T] {f f' : Full X ι κ α} (h : BoundsEq f f') (D : PertDomain X ι α) (m : Mode) (dc dc' : Bool)
    (L : LinIndex κ κ' T Q) (kernel : Q → α) (bias : κ' → α) :
    BoundsEq (linearLayerT D m dc L kernel bias f) (linearLayerT D m dc' L kernel bias f') := by
  obtain ⟨h1, h2, h3, h4, h5, h6, h7⟩ := h.tighten D m false true
  constructor <;> simp only [linearLayerT, h1, h2, h3, h4, h5, h6, h7]

theorem BoundsEq.relu {f f' : Full X ι κ α} (h : BoundsEq f f') (D : PertDomain X ι α) (m : Mode) (dc dc' : Bool) (eps : α) (s : Slope)
    (gamma : κ → α) : BoundsEq (reluT D m dc eps s gamma f) (reluT D m dc' eps s gamma f') := by
  obtain ⟨h1, h2, h3, h4, h5, h6, h7⟩ := h.tighten D m true true
  constructor <;> simp only [reluT, h1, h2, h3, h4, h5, h6, h7]

theorem BoundsEq.reindex {f f' : Full X ι κ α} (h : BoundsEq f f') (D : PertDomain X ι α) (m : Mode) (dc dc' : Bool) (e : κ' → κ) :
    BoundsEq (reindexT D m dc e f) (reindexT D m dc' e f') := by
  obtain ⟨h1, h2, h3, h4, h5, h6, h7⟩ := h.tighten D m false true
  constructor <;> simp only [reindexT, h1, h2, h3, h4, h5, h6, h7]

theorem tighten_hg (D : PertDomain X ι α) (m : Mode) (c t : Bool) (f : Full X ι κ α) :
    (f.tighten D m c t).h = f.h ∧ (f.tighten D m c t).g = f.g := by
  unfold Full.tighten
  split
  · split <;> exact ⟨rfl, rfl⟩
  · exact ⟨rfl, rfl⟩

theorem convexOn_sum_mul {T : Type} [Fintype T] {S : Set (ι → α)} (hS : Convex α S) (c : T → α) (hc : ∀ t, 0 ≤ c t) (F : T → (ι → α) → α)
    (hF : ∀ t, ConvexOn α S (F t)) : ConvexOn α S fun p => ∑ t, c t * F t p := by
  refine ⟨hS, fun p hp q hq a b ha hb hab => ?_⟩
  simp only [smul_eq_mul, Finset.mul_sum]
  rw [← Finset.sum_add_distrib]
  refine Finset.sum_le_sum fun t _ => ?_
  have := mul_le_mul_of_nonneg_left ((hF t).2 hp hq ha hb hab) (hc t)
  simp only [smul_eq_mul] at this
  linarith

theorem concaveOn_sum_mul {T : Type} [Fintype T] {S : Set (ι → α)} (hS : Convex α S) (c : T → α) (hc : ∀ t, 0 ≤ c t) (F : T → (ι → α) → α)
    (hF : ∀ t, ConcaveOn α S (F t)) : ConcaveOn α S fun p => ∑ t, c t * F t p := by
  refine ⟨hS, fun p hp q hq a b ha hb hab => ?_⟩
  simp only [smul_eq_mul, Finset.mul_sum]
  rw [← Finset.sum_add_distrib]
  refine Finset.sum_le_sum fun t _ => ?_
  have := mul_le_mul_of_nonneg_left ((hF t).2 hp hq ha hb hab) (hc t)
  simp only [smul_eq_mul] at this
  linarith

/-- Positive weights keep the kind, negative weights exchange it. -/
theorem dc_combination {T : Type} [Fintype T] {S : Set (ι → α)} (hS : Convex α S) (c : T → α) (H G : T → (ι → α) → α)
    (hH : ∀ t, ConvexOn α S (H t)) (hG : ∀ t, ConcaveOn α S (G t)) (b b' : α) :
    (ConvexOn α S fun p => (∑ t, max 0 (c t) * H t p) + (∑ t, min 0 (c t) * G t p) + b) ∧
    (ConcaveOn α S fun p => (∑ t, max 0 (c t) * G t p) + (∑ t, min 0 (c t) * H t p) + b') := by
  have hn : ∀ t, 0 ≤ - min 0 (c t) := fun t => neg_nonneg.2 (min_le_left _ _)
  have e : ∀ (F : T → (ι → α) → α), (fun p => ∑ t, min 0 (c t) * F t p) = fun p => ∑ t, (- min 0 (c t)) * (- F t) p := by
    intro F; funext p; simp
  have h1 := convexOn_sum_mul hS _ (fun t => le_max_left 0 (c t)) H hH
  have h2 := convexOn_sum_mul hS _ hn (fun t => - G t) fun t => (hG t).neg
  have h3 := concaveOn_sum_mul hS _ (fun t => le_max_left 0 (c t)) G hG
  have h4 := concaveOn_sum_mul hS _ hn (fun t => - H t) fun t => (hH t).neg
  rw [← e] at h2 h4
  exact ⟨(h1.add h2).add_const b, (h3.add h4).add_const b'⟩

theorem DcOn.cvx {S : Set (ι → α)} {f : (ι → α) → Full X ι κ α} (h : DcOn S f) (k : κ) : Convex α S := (h.convex k).1

theorem DcOn.dense [Fintype κ] {S : Set (ι → α)} (hS : Convex α S) {f : (ι → α) → Full X ι κ α} (h : DcOn S f) (D : PertDomain X ι α) (m : Mode)
    (kernel : κ → κ' → α) (bias : κ' → α) : DcOn S fun p => denseT D m true kernel bias (f p) := by
  refine ⟨fun p q => (h.same p q).dense D m true true kernel bias, fun o => ?_, fun o => ?_⟩
  · simp only [denseT, if_true, tighten_hg]
    exact (dc_combination hS (fun t => kernel t o) (fun t p => (f p).h t) (fun t p => (f p).g t) h.convex h.concave _ 0).1
  · simp only [denseT, if_true, tighten_hg]
    exact (dc_combination hS (fun t => kernel t o) (fun t p => (f p).h t) (fun t p => (f p).g t) h.convex h.concave 0 _).2

theorem DcOn.linear {T Q : Type} [Fintype T] {S : Set (ι → α)} (hS : Convex α S) {f : (ι → α) → Full X ι κ α} (h : DcOn S f) (D : PertDomain X ι α)
    (m : Mode) (L : LinIndex κ κ' T Q) (kernel : Q → α) (bias : κ' → α) : DcOn S fun p => linearLayerT D m true L kernel bias (f p) := by
  have hh : ∀ o t, ConvexOn α S fun p => (L.src o t).elim 0 (f p).h := by
    intro o t
    cases L.src o t with
    | none => exact convexOn_const 0 hS
    | some s => exact h.convex s
  have hg : ∀ o t, ConcaveOn α S fun p => (L.src o t).elim 0 (f p).g := by
    intro o t
    cases L.src o t with
    | none => exact concaveOn_const 0 hS
    | some s => exact h.concave s
  refine ⟨fun p q => (h.same p q).linear D m true true L kernel bias, fun o => ?_, fun o => ?_⟩
  · simp only [linearLayerT, if_true, tighten_hg, LinIndex.apply]
    exact (dc_combination hS (fun t => kernel (L.kidx o t)) _ _ (hh o) (hg o) _ 0).1
  · simp only [linearLayerT, if_true, tighten_hg, LinIndex.apply]
    exact (dc_combination hS (fun t => kernel (L.kidx o t)) _ _ (hh o) (hg o) 0 _).2

theorem indexLinear_mem (u : α) : indexLinear u = 0 ∨ indexLinear u = 1 := by
  unfold indexLinear ksign kclip
  split
  · left; norm_num
  · split <;> right <;> norm_num

theorem DcOn.relu {S : Set (ι → α)} (hS : Convex α S) {f : (ι → α) → Full X ι κ α} (h : DcOn S f) (D : PertDomain X ι α) (m : Mode) (eps : α)
    (s : Slope) (gamma : κ → α) : DcOn S fun p => reluT D m true eps s gamma (f p) := by
  have hu : ∀ p, ((f p).tighten D m true true).uc = ((f 0).tighten D m true true).uc := fun p => ((h.same 0 p).tighten D m true true).uc
  have hl : ∀ p, ((f p).tighten D m true true).lc = ((f 0).tighten D m true true).lc := fun p => ((h.same 0 p).tighten D m true true).lc
  have hm : ∀ k, ConvexOn α S fun p => max ((f p).h k) (-(f p).g k) := fun k => (h.convex k).sup (h.concave k).neg
  refine ⟨fun p q => (h.same p q).relu D m true true eps s gamma, fun k => ?_, fun k => ?_⟩
  · simp only [reluT, if_true, tighten_hg, hu, hl]
    rcases indexLinear_mem (((f 0).tighten D m true true).lc k) with e | e <;>
      rcases indexDead_mem (((f 0).tighten D m true true).uc k) with e' | e' <;> simp only [e, e', sub_zero, sub_self, one_mul, zero_mul, add_zero, zero_add]
    · exact hm k
    · exact convexOn_const 0 hS
    · exact h.convex k
    · exact h.convex k
  · simp only [reluT, if_true, tighten_hg, hu, hl]
    rcases indexLinear_mem (((f 0).tighten D m true true).lc k) with e | e <;>
      rcases indexDead_mem (((f 0).tighten D m true true).uc k) with e' | e' <;> simp only [e, e', sub_zero, sub_self, one_mul, zero_mul, add_zero, zero_add]
    · exact h.concave k
    · exact concaveOn_const 0 hS
    · exact h.concave k
    · exact h.concave k

theorem DcOn.reindex {S : Set (ι → α)} {f : (ι → α) → Full X ι κ α} (h : DcOn S f) (D : PertDomain X ι α) (m : Mode) (e : κ' → κ) :
    DcOn S fun p => reindexT D m true e (f p) := by
  refine ⟨fun p q => (h.same p q).reindex D m true true e, fun k => ?_, fun k => ?_⟩
  · simp only [reindexT, if_true, tighten_hg]; exact h.convex _
  · simp only [reindexT, if_true, tighten_hg]; exact h.concave _

/-- C112: which layers can be asked for the decomposition: chains without BatchNormalization succeed, and every other network raises
`NotImplementedError`. -/
theorem C112_success (D : PertDomain X ι α) (m : Mode) (eps : α) (s : Slope) (inp : Full X ι ι α) (N : Net α ι κ) :
    (N.KnowsDc → ∃ r, N.forwardDc D m eps s inp = .ok r) ∧ (¬ N.KnowsDc → N.forwardDc D m eps s inp = .error .notImplemented) := by
  induction N with
  | input => exact ⟨fun _ => ⟨inp, rfl⟩, fun h => absurd trivial h⟩
  | layer n l ih =>
    refine ⟨fun h => ?_, fun h => ?_⟩
    · obtain ⟨f, hf⟩ := ih.1 h.1
      simp only [Net.forwardDc, hf, Except.bind]
      have := h.2
      cases l <;> first | exact ⟨_, rfl⟩ | exact absurd this id
    · by_cases hn : n.KnowsDc
      · obtain ⟨f, hf⟩ := ih.1 hn
        simp only [Net.forwardDc, hf, Except.bind]
        have : ¬ l.KnowsDc := fun hl => h ⟨hn, hl⟩
        cases l <;> first | rfl | exact absurd trivial this
      · simp only [Net.forwardDc, ih.2 hn, Except.bind]
  | merge op n0 n1 ih0 ih1 =>
    refine ⟨fun h => absurd h id, fun _ => ?_⟩
    simp only [Net.forwardDc]
    by_cases h0 : n0.KnowsDc
    · obtain ⟨f, hf⟩ := ih0.1 h0
      rw [hf]
      by_cases h1 : n1.KnowsDc
      · obtain ⟨f, hf⟩ := ih1.1 h1
        rw [hf]; rfl
      · rw [ih1.2 h1]; rfl
    · rw [ih0.2 h0]; rfl

/-- C112: asking for the decomposition changes no bound. -/
theorem C112_bounds (D : PertDomain X ι α) (m : Mode) (eps : α) (s : Slope) (inp : Full X ι ι α) (N : Net α ι κ) (r : Full X ι κ α)
    (h : N.forwardDc D m eps s inp = .ok r) : BoundsEq (N.forward D m eps s inp) r := by
  induction N with
  | input => cases h; exact ⟨rfl, rfl, rfl, rfl, rfl, rfl, rfl⟩
  | layer n l ih =>
    simp only [Net.forwardDc] at h
    cases hf : n.forwardDc D m eps s inp with
    | error e => rw [hf] at h; cases h
    | ok f =>
      rw [hf] at h
      have := ih f hf
      cases l with
      | dense kernel bias => cases h; exact this.dense D m false true kernel bias
      | linear L kernel bias => cases h; exact this.linear D m false true L kernel bias
      | relu gf gb => cases h; exact this.relu D m false true eps s gf
      | batchNorm gamma beta mean sd => cases h
      | reshape e => cases h; exact this.reindex D m false true e
      | skip => cases h; exact this
  | merge op n0 n1 ih0 ih1 =>
    have := (C112_success D m eps s inp (.merge op n0 n1)).2 id
    rw [this] at h
    cases h

/-- C112: `h` is a convex function of the model input and `g` a concave one, for every chain of layers, whatever the mode, the slope and the
weights. -/
theorem C112_convex (D : PertDomain X ι α) (m : Mode) (eps : α) (s : Slope) (S : Set (ι → α)) (hS : Convex α S) (inp : (ι → α) → Full X ι ι α)
    (hi : DcOn S inp) (N : Net α ι κ) (r : (ι → α) → Full X ι κ α) (h : ∀ p, N.forwardDc D m eps s (inp p) = .ok (r p)) : DcOn S r := by
  induction N with
  | input =>
    have : inp = r := funext fun p => Except.ok.inj (h p)
    rwa [← this]
  | layer n l ih =>
    have hk : (Net.layer n l).KnowsDc := by
      by_contra hc
      have := h 0
      rw [(C112_success D m eps s (inp 0) _).2 hc] at this
      cases this
    choose f hf using fun p => (C112_success D m eps s (inp p) n).1 hk.1
    have hf' := ih f hf
    have key : ∀ p, l.forwardDc D m eps s (f p) = .ok (r p) := by
      intro p
      have := h p
      simp only [Net.forwardDc, hf, Except.bind] at this
      exact this
    cases l with
    | dense kernel bias =>
      have : (fun p => denseT D m true kernel bias (f p)) = r := funext fun p => Except.ok.inj (key p)
      rw [← this]; exact hf'.dense hS D m kernel bias
    | linear L kernel bias =>
      have : (fun p => linearLayerT D m true L kernel bias (f p)) = r := funext fun p => Except.ok.inj (key p)
      rw [← this]; exact hf'.linear hS D m L kernel bias
    | relu gf gb =>
      have : (fun p => reluT D m true eps s gf (f p)) = r := funext fun p => Except.ok.inj (key p)
      rw [← this]; exact hf'.relu hS D m eps s gf
    | batchNorm gamma beta mean sd => exact absurd hk.2 id
    | reshape e =>
      have : (fun p => reindexT D m true e (f p)) = r := funext fun p => Except.ok.inj (key p)
      rw [← this]; exact hf'.reindex D m e
    | skip =>
      have : f = r := funext fun p => Except.ok.inj (key p)
      rw [← this]; exact hf'
  | merge op n0 n1 ih0 ih1 =>
    have := h 0
    rw [(C112_success D m eps s (inp 0) (.merge op n0 n1)).2 id] at this
    cases this

/-- A value whose bounds and decomposition are those of two lists with the same bounds. -/
theorem BoundsEq.valid [Fintype ι] {f f' : Full X ι κ α} (h : BoundsEq f f') {m : Mode} {p : ι → α} {y : κ → α} (v : Valid m false f p y)
    (hd : ∀ k, f'.h k + f'.g k = y k) : Valid m true f' p y := by
  obtain ⟨h1, h2, h3, h4, h5, h6, h7⟩ := h
  refine ⟨fun hi k => ?_, fun ha k => ?_, fun _ => hd⟩
  · rw [h2, h3]; exact v.const hi k
  · rw [h4, h5, h6, h7]; exact v.aff ha k

/-- C112: the sum of `h` and `g` is the value of the network.  Missing: the slivers of C27, which make the bounds, and then the sum, wrong. -/
theorem C112_sum_partial [Fintype ι] (D : PertDomain X ι α) (m : Mode) (eps : α) (he : 0 < eps) (s : Slope) (inp : Full X ι ι α) (S : Set (ι → α))
    (hD : D.Sound inp.x S) (p : ι → α) (hp : p ∈ S) (hi : Valid m true inp p p) (N : Net α ι κ) (hN : N.WF) (hs : N.SliverOK D m eps s inp)
    (r : Full X ι κ α) (h : N.forwardDc D m eps s inp = .ok r) : ∀ k, r.h k + r.g k = N.eval p k := by
  have hi' : Valid m false inp p p := ⟨hi.const, hi.aff, by simp⟩
  induction N with
  | input => cases h; exact hi.dc rfl
  | layer n l ih =>
    simp only [Net.forwardDc] at h
    cases hf : n.forwardDc D m eps s inp with
    | error e => rw [hf] at h; cases h
    | ok f =>
      rw [hf] at h
      have hd := ih hN.1 hs.1 f hf
      have sb := C112_bounds D m eps s inp n f hf
      have v := sb.valid (Net.forward_valid D m eps he s inp S hD p hp hi' n hN.1 hs.1) hd
      have hDf : D.Sound f.x S := by rw [sb.x, Net.forward_x]; exact hD
      cases l with
      | dense kernel bias => cases h; exact (valid_dense D m true kernel bias f S hDf p hp _ v).dc rfl
      | linear L kernel bias => cases h; exact (C11_linear_valid D m true L kernel bias f S hDf p hp _ v).dc rfl
      | relu gf gb =>
        cases h
        have hs2 := hs.2
        refine (C06_relu_valid_partial D m true eps he s gf (fun k => (hN.2 k).1) f S hDf ?_ p hp _ v).dc rfl
        have t := sb.tighten D m true true
        unfold SliverFree
        rw [t.uc, t.lc]
        exact hs2
      | batchNorm gamma beta mean sd => cases h
      | reshape e => cases h; exact (valid_reindex D m true e f S hDf p hp _ v).dc rfl
      | skip => cases h; exact hd
  | merge op n0 n1 ih0 ih1 =>
    rw [(C112_success D m eps s inp (.merge op n0 n1)).2 id] at h
    cases h

/-- C112: in ibp mode there is no restriction. -/
theorem C112_sum_ibp [Fintype ι] (D : PertDomain X ι α) (eps : α) (he : 0 < eps) (s : Slope) (inp : Full X ι ι α) (S : Set (ι → α))
    (hD : D.Sound inp.x S) (p : ι → α) (hp : p ∈ S) (hi : Valid .ibp true inp p p) (N : Net α ι κ) (hN : N.WF)
    (r : Full X ι κ α) (h : N.forwardDc D .ibp eps s inp = .ok r) : ∀ k, r.h k + r.g k = N.eval p k :=
  C112_sum_partial D .ibp eps he s inp S hD p hp hi N hN (N.sliverOK_ibp D eps s inp) r h

theorem DcOn.add {S : Set (ι → α)} {f0 f1 : (ι → α) → Full X ι κ α} (h0 : DcOn S f0) (h1 : DcOn S f1) (D : PertDomain X ι α) (m : Mode) :
    DcOn S fun p => addT D m (f0 p) (f1 p) := by
  refine ⟨fun p q => ?_, fun k => ?_, fun k => ?_⟩
  · obtain ⟨a1, a2, a3, a4, a5, a6, a7⟩ := (h0.same p q).tighten D m true true
    obtain ⟨b1, b2, b3, b4, b5, b6, b7⟩ := (h1.same p q).tighten D m true true
    constructor <;> simp only [addT, a1, a2, a3, a4, a5, a6, a7, b2, b3, b4, b5, b6, b7]
  · simp only [addT, tighten_hg]; exact (h0.convex k).add (h1.convex k)
  · simp only [addT, tighten_hg]; exact (h0.concave k).add (h1.concave k)

theorem DcOn.minus {S : Set (ι → α)} {f : (ι → α) → Full X ι κ α} (h : DcOn S f) (D : PertDomain X ι α) (m : Mode) :
    DcOn S fun p => minusT D m (f p) := by
  refine ⟨fun p q => ?_, fun k => ?_, fun k => ?_⟩
  rotate_left
  · simp only [minusT, tighten_hg]; exact (h.concave k).neg
  · simp only [minusT, tighten_hg]; exact (h.convex k).neg
  obtain ⟨a1, a2, a3, a4, a5, a6, a7⟩ := (h.same p q).tighten D m false false
  constructor <;> simp only [minusT, a1, a2, a3, a4, a5, a6, a7]

/-- C112: the functions on one or two lists of tensors (`add`, `minus`, `subtract`, `maximum`, `minimum`) keep `h` convex and `g` concave: the
opposite exchanges them, and the maximum of two is `max(h - g', h' - g) + ...`. -/
theorem C112_functions (D : PertDomain X ι α) (m : Mode) (eps : α) (gamma : κ → α) (S : Set (ι → α)) (hS : Convex α S)
    (f0 f1 : (ι → α) → Full X ι κ α) (h0 : DcOn S f0) (h1 : DcOn S f1) :
    (DcOn S fun p => addT D m (f0 p) (f1 p)) ∧ (DcOn S fun p => minusT D m (f0 p)) ∧ (DcOn S fun p => subtractT D m (f0 p) (f1 p)) ∧
    (DcOn S fun p => maximumT D m true eps gamma (f0 p) (f1 p)) ∧ (DcOn S fun p => minimumT D m true eps gamma (f0 p) (f1 p)) := by
  have mx : ∀ f0 f1 : (ι → α) → Full X ι κ α, DcOn S f0 → DcOn S f1 → DcOn S fun p => maximumT D m true eps gamma (f0 p) (f1 p) :=
    fun f0 f1 h0 h1 => ((h1.add (h0.minus D m) D m).relu hS D m eps .vSlope gamma).add h0 D m
  exact ⟨h0.add h1 D m, h0.minus D m, h0.add (h1.minus D m) D m, mx f0 f1 h0 h1, (mx _ _ (h0.minus D m) (h1.minus D m)).minus D m⟩

/-- C112: the maximum along an axis keeps `h` convex and `g` concave. -/
theorem C112_max {n : ℕ} (D : PertDomain X ι α) (m : Mode) (eps : α) (S : Set (ι → α)) (hS : Convex α S) (e : κ' → Fin (n + 1) → κ)
    (f : (ι → α) → Full X ι κ α) (h : DcOn S f) (k : κ') :
    (ConvexOn α S fun p => (maxReduceT D m true eps e (f p)).h k) ∧ ConcaveOn α S fun p => (maxReduceT D m true eps e (f p)).g k := by
  have hsum : ∀ F : Fin (n + 1) → (ι → α) → α, (∀ i, ConcaveOn α S (F i)) → ConcaveOn α S fun p => ∑ i, F i p := by
    intro F hF
    simpa using concaveOn_sum_mul hS (fun _ => (1 : α)) (fun _ => zero_le_one) F hF
  simp only [maxReduceT, if_true, Bool.true_eq_false, and_false, if_false]
  refine ⟨⟨hS, fun p hp q hq a b ha hb hab => ?_⟩, hsum _ fun i => h.concave (e k i)⟩
  obtain ⟨i, hi⟩ := exists_maxOver fun i => (f (a • p + b • q)).h (e k i) + (f (a • p + b • q)).g (e k i)
  dsimp only
  rw [hi]
  -- the chosen entry minus the other concave parts is convex
  have rest : ConcaveOn α S fun p => ∑ j ∈ Finset.univ.erase i, (f p).g (e k j) := by
    have := hsum (fun j p => if j = i then 0 else (f p).g (e k j)) (fun j => by
      by_cases hj : j = i
      · simp only [hj, if_true]; exact concaveOn_const 0 hS
      · simp only [hj, if_false]; exact h.concave (e k j))
    convert this using 2 with p
    rw [← Finset.add_sum_erase _ _ (Finset.mem_univ i)]
    simp only [if_true, zero_add]
    exact Finset.sum_congr rfl fun j hj => by rw [if_neg (Finset.ne_of_mem_erase hj)]
  have split : ∀ p, ∑ j, (f p).g (e k j) = (f p).g (e k i) + ∑ j ∈ Finset.univ.erase i, (f p).g (e k j) :=
    fun p => (Finset.add_sum_erase _ _ (Finset.mem_univ i)).symm
  have c1 := (h.convex (e k i)).2 hp hq ha hb hab
  have c2 := rest.2 hp hq ha hb hab
  have m1 := mul_le_mul_of_nonneg_left (le_maxOver (fun i => (f p).h (e k i) + (f p).g (e k i)) i) ha
  have m2 := mul_le_mul_of_nonneg_left (le_maxOver (fun i => (f q).h (e k i) + (f q).g (e k i)) i) hb
  simp only [smul_eq_mul] at c1 c2 ⊢
  rw [split, split p, split q]
  linarith

/-- C112: refuted for the maximum along an axis: in ibp mode the bounds are wider with `dc_decomp=True` than without.  On two entries in
`[0, 1]`, the upper bound is 2 instead of 1. -/
theorem C112_max_bounds_refuted :
    ∃ f : Full Unit Unit (Fin 2) ℚ, (∀ k, f.lc k = 0 ∧ f.uc k = 1) ∧
      (maxReduceT ⟨fun _ _ _ => 0, fun _ _ _ => 0⟩ .ibp false (1 / 10000000) (fun (_ : Unit) i => i) f).uc () = 1 ∧
      (maxReduceT ⟨fun _ _ _ => 0, fun _ _ _ => 0⟩ .ibp true (1 / 10000000) (fun (_ : Unit) i => i) f).uc () = 2 := by
  refine ⟨⟨(), fun _ => 1, fun _ _ => 0, fun _ => 0, fun _ => 0, fun _ _ => 0, fun _ => 0, fun _ => 0, fun _ => 0⟩, fun k => ⟨rfl, rfl⟩, ?_, ?_⟩
  · decide +kernel
  · decide +kernel

/-- The tensors of the model input `p` of a box, with `h = p` and `g = 0`. -/
def dcInput [DecidableEq ι] (m : Mode) (xmin xmax p : ι → α) : Full ((ι → α) × (ι → α)) ι ι α :=
  { inputTensorsBox m xmin xmax with h := p, g := fun _ => 0 }

/-- C112: refuted in affine mode without the hypothesis on slivers: `ReLU(ReLU(x) - 1/8)` on `[-1/4, 1/4]`, with 1 for epsilon.  At `x = 1/4` the
value is 1/8, and `h + g` is 0, because the second ReLU is believed to be dead. -/
theorem C112_sum_refuted :
    let N : Net ℚ (Fin 1) (Fin 1) := .layer (.layer (.layer .input (.relu (fun _ => 1) (fun _ => 1)))
      (.dense (fun _ _ => 1) (fun _ => -1 / 8))) (.relu (fun _ => 1) (fun _ => 1))
    ∃ r, N.forwardDc boxDomain .affine 1 .vSlope (dcInput .affine (fun _ => -1 / 4) (fun _ => 1 / 4) (fun _ => 1 / 4)) = .ok r ∧
      r.h 0 + r.g 0 = 0 ∧ N.eval (fun _ => 1 / 4) 0 = 1 / 8 := by
  refine ⟨_, rfl, by decide +kernel, by decide +kernel⟩

/-- C112: the tensors of the model input that a user gives: `h = p`, `g = 0`. -/
theorem C112_input [Fintype ι] [DecidableEq ι] (m : Mode) (xmin xmax : ι → α) :
    DcOn Set.univ (dcInput m xmin xmax) ∧ ∀ p ∈ Box xmin xmax, Valid m true (dcInput m xmin xmax p) p p := by
  refine ⟨⟨fun p q => ⟨rfl, rfl, rfl, rfl, rfl, rfl, rfl⟩, fun k => ?_, fun k => concaveOn_const 0 convex_univ⟩, fun p hp => ?_⟩
  · exact ⟨convex_univ, fun p _ q _ a b _ _ _ => by simp [dcInput]⟩
  · have v := C27_input_box m xmin xmax p hp
    exact ⟨v.const, v.aff, fun _ k => by simp [dcInput]⟩

/-- `relu(x) - relu(-x)` over `[-1, 1]`: the layers return a convex and a concave function whose sum is the value of the model. -/
def dcNet : Net ℚ (Fin 1) (Fin 1) := .layer (.layer (.layer .input (.dense (fun _ => ![1, -1]) (fun _ => 0) : Lay ℚ (Fin 1) (Fin 2)))
  (.relu (fun _ => 1) (fun _ => 1))) (.dense ![fun _ => 1, fun _ => -1] (fun _ => 0))

theorem dcNet_ok : dcNet.KnowsDc ∧ dcNet.WF := ⟨⟨⟨⟨trivial, trivial⟩, trivial⟩, trivial⟩, ⟨⟨⟨trivial, trivial⟩, fun _ => by norm_num⟩, trivial⟩⟩

example (p : Fin 1 → ℚ) (hp : p ∈ Box (fun _ => -1) fun _ => 1) :
    ∃ r, dcNet.forwardDc boxDomain .ibp (1 / 10000000) .vSlope (dcInput .ibp (fun _ => -1) (fun _ => 1) p) = .ok r ∧ (∀ k, r.h k + r.g k = dcNet.eval p k) ∧
      BoundsEq (dcNet.forward boxDomain .ibp (1 / 10000000) .vSlope (dcInput .ibp (fun _ => -1) (fun _ => 1) p)) r := by
  obtain ⟨r, h⟩ := (C112_success boxDomain .ibp (1 / 10000000) .vSlope (dcInput .ibp (fun _ => -1) (fun _ => 1) p) dcNet).1 dcNet_ok.1
  exact ⟨r, h, C112_sum_ibp boxDomain _ (by norm_num) .vSlope _ _ (boxDomain_sound _ _) p hp ((C112_input .ibp _ _).2 p hp) dcNet dcNet_ok.2 r h,
    C112_bounds boxDomain .ibp _ .vSlope _ dcNet r h⟩

example : ∃ r, dcNet.forwardDc boxDomain .hybrid (1 / 10000000) .vSlope (dcInput .hybrid (fun _ => -1) (fun _ => 1) fun _ => 1 / 2) = .ok r ∧
    ∀ k, r.h k + r.g k = dcNet.eval (fun _ => 1 / 2) k := by
  obtain ⟨r, h⟩ := (C112_success boxDomain .hybrid (1 / 10000000) .vSlope (dcInput .hybrid (fun _ => -1) (fun _ => 1) fun _ => 1 / 2) dcNet).1 dcNet_ok.1
  have hp : (fun _ : Fin 1 => (1 / 2 : ℚ)) ∈ Box (fun _ => -1) fun _ => 1 := fun _ => by norm_num
  refine ⟨r, h, C112_sum_partial boxDomain .hybrid _ (by norm_num) .vSlope _ _ (boxDomain_sound _ _) _ hp ((C112_input .hybrid _ _).2 _ hp) dcNet dcNet_ok.2 ?_ r h⟩
  refine ⟨⟨⟨trivial, trivial⟩, fun _ k => ?_⟩, trivial⟩
  clear h r
  fin_cases k <;> decide +kernel

example : ∃ r : (Fin 1 → ℚ) → Full _ (Fin 1) (Fin 1) ℚ,
    (∀ p, dcNet.forwardDc boxDomain .affine (1 / 10000000) .vSlope (dcInput .affine (fun _ => -1) (fun _ => 1) p) = .ok (r p)) ∧ DcOn Set.univ r := by
  have h := fun p => (C112_success boxDomain .affine (1 / 10000000 : ℚ) .vSlope (dcInput .affine (fun _ => -1) (fun _ => 1) p) dcNet).1 dcNet_ok.1
  choose r hr using h
  exact ⟨r, hr, C112_convex boxDomain .affine _ .vSlope Set.univ convex_univ _ (C112_input .affine _ _).1 dcNet r hr⟩

/-- The functions and the maximum over an axis, for the inputs of a box. -/
example (m : Mode) : (DcOn Set.univ fun p : Fin 2 → ℚ => maximumT boxDomain m true 1 (fun _ => 1) (dcInput m (fun _ => 0) (fun _ => 1) p) (dcInput m (fun _ => 0) (fun _ => 1) p)) ∧
    ConvexOn ℚ Set.univ fun p : Fin 2 → ℚ => (maxReduceT boxDomain m true 1 (fun (_ : Unit) (i : Fin 2) => i) (dcInput m (fun _ => 0) (fun _ => 1) p)).h () :=
  ⟨(C112_functions boxDomain m 1 (fun _ => 1) Set.univ convex_univ _ _ (C112_input m _ _).1 (C112_input m _ _).1).2.2.2.1,
    (C112_max boxDomain m 1 Set.univ convex_univ (fun (_ : Unit) (i : Fin 2) => i) _ (C112_input m _ _).1 ()).1⟩

/-- C112 on an example: `ReLU(x) - ReLU(-x)` on `[-1, 1]` in ibp mode: `h(p) = max(p, 0) + p` and `g(p) = -max(p, 0)`, for example 1 and -1/2 at 1/2. -/
example :
    let N : Net ℚ (Fin 1) (Fin 1) := .layer (.layer (.layer .input (.dense (fun _ => ![1, -1]) (fun _ => 0) : Lay ℚ (Fin 1) (Fin 2)))
      (.relu (fun _ => 1) (fun _ => 1))) (.dense ![fun _ => 1, fun _ => -1] (fun _ => 0))
    N.KnowsDc ∧ ∃ r, N.forwardDc boxDomain .ibp (1 / 10000000) .vSlope (dcInput .ibp (fun _ => -1) (fun _ => 1) (fun _ => 1 / 2)) = .ok r ∧
      r.h 0 = 1 ∧ r.g 0 = -1 / 2 ∧ N.eval (fun _ => 1 / 2) 0 = 1 / 2 := by
  refine ⟨⟨⟨⟨trivial, trivial⟩, trivial⟩, trivial⟩, _, rfl, by decide +kernel, by decide +kernel, by decide +kernel⟩

end

end Decomon
