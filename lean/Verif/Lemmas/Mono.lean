import Verif.Lemmas.Network

/-! Monotonicity of the constant bounds. -/

namespace Decomon

/-- The constant bounds of `f` lie inside those of `g`. -/
def Tighter {X X' ι ι' κ α : Type*} [LE α] (f : Full X ι κ α) (g : Full X' ι' κ α) : Prop :=
  ∀ k, g.lc k ≤ f.lc k ∧ f.uc k ≤ g.uc k

section
variable {X X' ι ι' κ κ' α : Type} [Field α] [LinearOrder α] [IsStrictOrderedRing α]

omit [Field α] [IsStrictOrderedRing α] in
theorem tighter_tighten {D : PertDomain X ι α} {m : Mode} (hm : getIbp m = true) (c t : Bool) {D' : PertDomain X' ι' α} (c' t' : Bool)
    {f : Full X ι κ α} {g : Full X' ι' κ α} (h : Tighter f g) : Tighter (f.tighten D m c t) (g.tighten D' .ibp c' t') := by
  have e : g.tighten D' .ibp c' t' = g := by simp [Full.tighten]
  rw [e]
  intro k
  have : f.lc k ≤ (f.tighten D m c t).lc k ∧ (f.tighten D m c t).uc k ≤ f.uc k := by
    cases m <;> cases c <;> cases t <;> simp [Full.tighten, getIbp] at *
  exact ⟨(h k).1.trans this.1, this.2.trans (h k).2⟩

theorem tighter_add {D : PertDomain X ι α} {m : Mode} (hm : getIbp m = true) {D' : PertDomain X' ι' α} {f0 f1 : Full X ι κ α}
    {g0 g1 : Full X' ι' κ α} (h0 : Tighter f0 g0) (h1 : Tighter f1 g1) : Tighter (addT D m f0 f1) (addT D' .ibp g0 g1) := by
  intro k
  have a := tighter_tighten (D := D) hm true true (D' := D') true true h0 k
  have b := tighter_tighten (D := D) hm true true (D' := D') true true h1 k
  exact ⟨add_le_add a.1 b.1, add_le_add a.2 b.2⟩

theorem tighter_minus {D : PertDomain X ι α} {m : Mode} (hm : getIbp m = true) {D' : PertDomain X' ι' α} {f : Full X ι κ α}
    {g : Full X' ι' κ α} (h : Tighter f g) : Tighter (minusT D m f) (minusT D' .ibp g) := by
  intro k
  have a := tighter_tighten (D := D) hm false false (D' := D') false false h k
  exact ⟨neg_le_neg a.2, neg_le_neg a.1⟩

theorem tighter_relu {D : PertDomain X ι α} {m : Mode} (hm : getIbp m = true) {D' : PertDomain X' ι' α} (eps : α) (s s' : Slope)
    (gm gm' : κ → α) {f : Full X ι κ α} {g : Full X' ι' κ α} (h : Tighter f g) :
    Tighter (reluT D m false eps s gm f) (reluT D' .ibp false eps s' gm' g) := by
  intro k
  have a := tighter_tighten (D := D) hm true true (D' := D') true true h k
  simp only [reluT, hm, if_true, show getIbp .ibp = true from rfl]
  exact ⟨relu_mono a.1, relu_mono a.2⟩

theorem tighter_maximum {D : PertDomain X ι α} {m : Mode} (hm : getIbp m = true) {D' : PertDomain X' ι' α} (eps : α)
    (gm gm' : κ → α) {f0 f1 : Full X ι κ α} {g0 g1 : Full X' ι' κ α} (h0 : Tighter f0 g0) (h1 : Tighter f1 g1) :
    Tighter (maximumT D m false eps gm f0 f1) (maximumT D' .ibp false eps gm' g0 g1) :=
  tighter_add hm (tighter_relu hm eps _ _ gm gm' (tighter_add hm h1 (tighter_minus hm h0))) h0

theorem posneg_mono {T : Type*} [Fintype T] (c l u l' u' : T → α) (h : ∀ t, l' t ≤ l t ∧ u t ≤ u' t) :
    (∑ t, max 0 (c t) * u t) + (∑ t, min 0 (c t) * l t) ≤ (∑ t, max 0 (c t) * u' t) + ∑ t, min 0 (c t) * l' t := by
  refine add_le_add (Finset.sum_le_sum fun t _ => ?_) (Finset.sum_le_sum fun t _ => ?_)
  · exact mul_le_mul_of_nonneg_left (h t).2 (le_max_left _ _)
  · exact mul_le_mul_of_nonpos_left (h t).1 (min_le_left _ _)

theorem negpos_mono {T : Type*} [Fintype T] (c l u l' u' : T → α) (h : ∀ t, l' t ≤ l t ∧ u t ≤ u' t) :
    (∑ t, max 0 (c t) * l' t) + (∑ t, min 0 (c t) * u' t) ≤ (∑ t, max 0 (c t) * l t) + ∑ t, min 0 (c t) * u t := by
  refine add_le_add (Finset.sum_le_sum fun t _ => ?_) (Finset.sum_le_sum fun t _ => ?_)
  · exact mul_le_mul_of_nonneg_left (h t).1 (le_max_left _ _)
  · exact mul_le_mul_of_nonpos_left (h t).2 (min_le_left _ _)

theorem tighter_layer [Fintype κ] {D : PertDomain X ι α} {m : Mode} (hm : getIbp m = true) {D' : PertDomain X' ι' α} (eps : α)
    (s s' : Slope) (l : Lay α κ κ') (hl : l.WF) {f : Full X ι κ α} {g : Full X' ι' κ α} (h : Tighter f g) :
    Tighter (l.forward D m eps s f) (l.forward D' .ibp eps s' g) := by
  have a := tighter_tighten (D := D) hm false true (D' := D') false true h
  have hib : getIbp .ibp = true := rfl
  cases l with
  | dense kernel bias =>
    intro k
    simp only [Lay.forward, denseT, hm, hib, if_true]
    have h1 := posneg_mono (fun t => kernel t k) _ _ _ _ a
    have h2 := negpos_mono (fun t => kernel t k) _ _ _ _ a
    exact ⟨by linarith, by linarith⟩
  | linear L kernel bias =>
    intro k
    simp only [Lay.forward, linearLayerT, hm, hib, if_true, LinIndex.apply]
    have a' : ∀ t, (L.src k t).elim 0 (g.tighten D' .ibp false true).lc ≤ (L.src k t).elim 0 (f.tighten D m false true).lc ∧
        (L.src k t).elim 0 (f.tighten D m false true).uc ≤ (L.src k t).elim 0 (g.tighten D' .ibp false true).uc := by
      intro t
      cases L.src k t with
      | none => exact ⟨le_rfl, le_rfl⟩
      | some s => exact a s
    have h1 := posneg_mono (fun t => kernel (L.kidx k t)) _ _ _ _ a'
    have h2 := negpos_mono (fun t => kernel (L.kidx k t)) _ _ _ _ a'
    exact ⟨by linarith, by linarith⟩
  | relu gf gb => exact tighter_relu hm eps s s' gf gf h
  | batchNorm gamma beta mean sd =>
    intro k
    have hsd := hl k
    simp only [Lay.forward, batchNormT, hm, hib, if_true]
    obtain ⟨a1, a2⟩ := a k
    have b1 : ∀ x y : α, x ≤ y → (x - mean k) / sd k ≤ (y - mean k) / sd k := fun x y hxy => by gcongr
    refine ⟨?_, ?_⟩
    · have := mul_le_mul_of_nonneg_left (b1 _ _ a1) (le_max_left 0 (gamma k))
      have := mul_le_mul_of_nonpos_left (b1 _ _ a2) (min_le_left 0 (gamma k))
      linarith
    · have := mul_le_mul_of_nonneg_left (b1 _ _ a2) (le_max_left 0 (gamma k))
      have := mul_le_mul_of_nonpos_left (b1 _ _ a1) (min_le_left 0 (gamma k))
      linarith
  | reshape e =>
    intro k
    simp only [Lay.forward, reindexT, hm, hib, if_true]
    exact a (e k)
  | skip => exact h

/-- McCormick upper bound: growing the box raises it. -/
theorem mcc_upper {a u0 l0 u1 l1 U0 L0 U1 L1 : α} (hu0 : u0 ≤ U0) (hl0 : L0 ≤ l0) (hu1 : u1 ≤ U1) (hl1 : L1 ≤ l1)
    (h0 : l0 ≤ u0) (h1 : l1 ≤ u1) (ha : a = max (u0 * u1) (u0 * l1) + max (u0 * l1) (l0 * l1) - u0 * l1) :
    a ≤ max (U0 * U1) (U0 * L1) + max (U0 * L1) (L0 * L1) - U0 * L1 := by
  have key : ∀ x y, l0 ≤ x → x ≤ u0 → l1 ≤ y → y ≤ u1 →
      u0 * y + x * l1 - u0 * l1 ≤ max (U0 * U1) (U0 * L1) + max (U0 * L1) (L0 * L1) - U0 * L1 := by
    intro x y hx1 hx2 hy1 hy2
    have s1 : u0 * y + x * l1 - u0 * l1 ≤ U0 * y + x * L1 - U0 * L1 := by
      nlinarith [mul_nonneg (sub_nonneg.2 (hx2.trans hu0)) (sub_nonneg.2 hl1), mul_nonneg (sub_nonneg.2 hu0) (sub_nonneg.2 hy1),
        mul_nonneg (sub_nonneg.2 hx2) (sub_nonneg.2 hl1)]
    have s2 : U0 * y ≤ max (U0 * U1) (U0 * L1) := by
      rcases le_total 0 U0 with h | h
      · exact (mul_le_mul_of_nonneg_left (hy2.trans hu1) h).trans (le_max_left _ _)
      · exact (mul_le_mul_of_nonpos_left (hl1.trans hy1) h).trans (le_max_right _ _)
    have s3 : x * L1 ≤ max (U0 * L1) (L0 * L1) := by
      rcases le_total 0 L1 with h | h
      · exact (mul_le_mul_of_nonneg_right (hx2.trans hu0) h).trans (le_max_left _ _)
      · exact (mul_le_mul_of_nonpos_right (hl0.trans hx1) h).trans (le_max_right _ _)
    linarith
  have k1 := key u0 u1 h0 le_rfl h1 le_rfl
  have k2 := key u0 l1 h0 le_rfl le_rfl h1
  have k3 := key l0 u1 le_rfl h0 h1 le_rfl
  have k4 := key l0 l1 le_rfl h0 le_rfl h1
  rw [ha]
  rcases max_cases (u0 * u1) (u0 * l1) with ⟨e, _⟩ | ⟨e, _⟩ <;> rcases max_cases (u0 * l1) (l0 * l1) with ⟨e', _⟩ | ⟨e', _⟩ <;>
    rw [e, e'] <;> linarith

/-- McCormick lower bound: growing the box lowers it. -/
theorem mcc_lower {u0 l0 u1 l1 U0 L0 U1 L1 : α} (hu0 : u0 ≤ U0) (hl0 : L0 ≤ l0) (hu1 : u1 ≤ U1) (hl1 : L1 ≤ l1)
    (h0 : l0 ≤ u0) (h1 : l1 ≤ u1) :
    min (L0 * L1) (L0 * U1) + min (L0 * L1) (U0 * L1) - L0 * L1 ≤
      min (l0 * l1) (l0 * u1) + min (l0 * l1) (u0 * l1) - l0 * l1 := by
  have key : ∀ x y, l0 ≤ x → x ≤ u0 → l1 ≤ y → y ≤ u1 →
      min (L0 * L1) (L0 * U1) + min (L0 * L1) (U0 * L1) - L0 * L1 ≤ l0 * y + x * l1 - l0 * l1 := by
    intro x y hx1 hx2 hy1 hy2
    have s1 : L0 * y + x * L1 - L0 * L1 ≤ l0 * y + x * l1 - l0 * l1 := by
      nlinarith [mul_nonneg (sub_nonneg.2 hx1) (sub_nonneg.2 hl1), mul_nonneg (sub_nonneg.2 hl0) (sub_nonneg.2 hy1),
        mul_nonneg (sub_nonneg.2 hl0) (sub_nonneg.2 hl1)]
    have s2 : min (L0 * L1) (L0 * U1) ≤ L0 * y := by
      rcases le_total 0 L0 with h | h
      · exact (min_le_left _ _).trans (mul_le_mul_of_nonneg_left (hl1.trans hy1) h)
      · exact (min_le_right _ _).trans (mul_le_mul_of_nonpos_left (hy2.trans hu1) h)
    have s3 : min (L0 * L1) (U0 * L1) ≤ x * L1 := by
      rcases le_total 0 L1 with h | h
      · exact (min_le_left _ _).trans (mul_le_mul_of_nonneg_right (hl0.trans hx1) h)
      · exact (min_le_right _ _).trans (mul_le_mul_of_nonpos_right (hx2.trans hu0) h)
    linarith
  have k1 := key l0 l1 le_rfl h0 le_rfl h1
  have k2 := key l0 u1 le_rfl h0 h1 le_rfl
  have k3 := key u0 l1 h0 le_rfl le_rfl h1
  have k4 := key u0 u1 h0 le_rfl h1 le_rfl
  rcases min_cases (l0 * l1) (l0 * u1) with ⟨e, _⟩ | ⟨e, _⟩ <;> rcases min_cases (l0 * l1) (u0 * l1) with ⟨e', _⟩ | ⟨e', _⟩ <;>
    rw [e, e'] <;> linarith

theorem tighter_multiply {D : PertDomain X ι α} {m : Mode} (hm : getIbp m = true) {D' : PertDomain X' ι' α} {f0 f1 : Full X ι κ α}
    {g0 g1 : Full X' ι' κ α} (h0 : Tighter f0 g0) (h1 : Tighter f1 g1)
    (o0 : ∀ k, (f0.tighten D m true true).lc k ≤ (f0.tighten D m true true).uc k)
    (o1 : ∀ k, (f1.tighten D m true true).lc k ≤ (f1.tighten D m true true).uc k) :
    Tighter (multiplyT D m f0 f1) (multiplyT D' .ibp g0 g1) := by
  intro k
  obtain ⟨a1, a2⟩ := tighter_tighten (D := D) hm true true (D' := D') true true h0 k
  obtain ⟨b1, b2⟩ := tighter_tighten (D := D) hm true true (D' := D') true true h1 k
  simp only [multiplyT, hm, show getIbp .ibp = true from rfl, if_true]
  exact ⟨mcc_lower a2 a1 b2 b1 (o0 k) (o1 k),
    min_le_min (mcc_upper a2 a1 b2 b1 (o0 k) (o1 k) rfl) (mcc_upper b2 b1 a2 a1 (o1 k) (o0 k) rfl)⟩

theorem tighter_merge {D : PertDomain X ι α} {m : Mode} (hm : getIbp m = true) {D' : PertDomain X' ι' α} (eps : α) (op : MergeOp)
    {f0 f1 : Full X ι κ α} {g0 g1 : Full X' ι' κ α} (h0 : Tighter f0 g0) (h1 : Tighter f1 g1)
    (ho : op = .multiply → (∀ k, (f0.tighten D m true true).lc k ≤ (f0.tighten D m true true).uc k) ∧
      ∀ k, (f1.tighten D m true true).lc k ≤ (f1.tighten D m true true).uc k) :
    Tighter (op.forward D m eps f0 f1) (op.forward D' .ibp eps g0 g1) := by
  have a := tighter_tighten (D := D) hm false true (D' := D') false true h0
  have b := tighter_tighten (D := D) hm false true (D' := D') false true h1
  have hib : getIbp .ibp = true := rfl
  cases op with
  | add =>
    intro k
    simp only [MergeOp.forward, addLayerT, hm, hib, if_true, List.map_cons, List.map_nil, List.sum_cons, List.sum_nil, add_zero]
    exact ⟨add_le_add (a k).1 (b k).1, add_le_add (a k).2 (b k).2⟩
  | average =>
    intro k
    simp only [MergeOp.forward, averageLayerT, hm, hib, if_true, List.map_cons, List.map_nil, List.sum_cons, List.sum_nil, add_zero,
      List.length_cons, List.length_nil]
    have := a k; have := b k
    constructor <;> gcongr <;> tauto
  | subtract => exact tighter_add hm h0 (tighter_minus hm h1)
  | maximum => exact tighter_maximum hm eps _ _ h0 h1
  | minimum =>
    exact tighter_minus hm (tighter_maximum hm eps _ _ (tighter_minus hm h0) (tighter_minus hm h1))
  | multiply => exact tighter_multiply hm h0 h1 (ho rfl).1 (ho rfl).2

/-- No `Multiply` layer in the network. -/
def Net.NoMultiply : {κ : Type} → Net α ι κ → Prop
  | _, .input => True
  | _, @Net.layer _ _ _ _ _ _ _ n _ => n.NoMultiply
  | _, .merge op n0 n1 => op ≠ .multiply ∧ n0.NoMultiply ∧ n1.NoMultiply

theorem tighter_net [Fintype ι] {D : PertDomain X ι α} {m : Mode} (hm : getIbp m = true) {D' : PertDomain X' ι α} (eps : α)
    (he : 0 < eps) (s s' : Slope) {inp : Full X ι ι α} {inp' : Full X' ι ι α} (h : Tighter inp inp') {κ : Type} (n : Net α ι κ)
    (hn : n.WF) (hmul : n.NoMultiply ∨ ∃ S p, D.Sound inp.x S ∧ p ∈ S ∧ Valid m false inp p p ∧ n.SliverOK D m eps s inp) :
    Tighter (n.forward D m eps s inp) (n.forward D' .ibp eps s' inp') := by
  induction n with
  | input => exact h
  | layer n l ih =>
    refine tighter_layer hm eps s s' l hn.2 (ih hn.1 ?_)
    rcases hmul with h | ⟨S, p, h1, h2, h3, h4⟩
    · exact .inl h
    · exact .inr ⟨S, p, h1, h2, h3, h4.1⟩
  | merge op n0 n1 ih0 ih1 =>
    refine tighter_merge hm eps op (ih0 hn.1 ?_) (ih1 hn.2 ?_) ?_
    · rcases hmul with h | ⟨S, p, h1, h2, h3, h4⟩
      · exact .inl h.2.1
      · exact .inr ⟨S, p, h1, h2, h3, h4.1⟩
    · rcases hmul with h | ⟨S, p, h1, h2, h3, h4⟩
      · exact .inl h.2.2
      · exact .inr ⟨S, p, h1, h2, h3, h4.2.1⟩
    · intro hop
      rcases hmul with h | ⟨S, p, h1, h2, h3, h4⟩
      · exact absurd hop h.1
      · have v0 := Net.forward_valid D m eps he s inp S h1 p h2 h3 n0 hn.1 h4.1
        have v1 := Net.forward_valid D m eps he s inp S h1 p h2 h3 n1 hn.2 h4.2.1
        have c0 := tighten_const D m false _ S (by rw [Net.forward_x]; exact h1) p h2 _ v0
        have c1 := tighten_const D m false _ S (by rw [Net.forward_x]; exact h1) p h2 _ v1
        exact ⟨fun k => (c0 k).1.trans (c0 k).2, fun k => (c1 k).1.trans (c1 k).2⟩

end

end Decomon
