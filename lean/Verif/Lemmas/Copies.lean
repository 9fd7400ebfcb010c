import Verif.SpecCopies
import Verif.Lemmas.Prune
import Mathlib.Algebra.Order.BigOperators.Group.Finset

/-! Lemmas for C159: copies of neurons. -/

namespace Decomon

section
variable {X ι κ κ' μ ν α : Type} [Fintype κ] [DecidableEq κ] [Fintype κ'] [Field α] [LinearOrder α]

theorem sum_copies (r : κ' → κ) (w : κ' → α) (w0 v : κ → α) (h : ∀ k, ∑ k' with r k' = k, w k' = w0 k) : ∑ k', w k' * v (r k') = ∑ k, w0 k * v k := by
  rw [← Finset.sum_fiberwise Finset.univ r]
  refine Finset.sum_congr rfl fun k _ => ?_
  rw [← h k, Finset.sum_mul]
  exact Finset.sum_congr rfl fun k' hk => by rw [(Finset.mem_filter.1 hk).2]

variable [IsStrictOrderedRing α]

omit [Fintype κ] in
theorem SplitWeights.pos {r : κ' → κ} {K : κ → μ → α} {K' : κ' → μ → α} (h : SplitWeights r K K') (o : μ) (k : κ) :
    ∑ k' with r k' = k, max 0 (K' k' o) = max 0 (K k o) := by
  obtain ⟨hs, hn⟩ := h o
  rcases le_total 0 (K k o) with h0 | h0
  · rw [max_eq_right h0, ← hs k]
    refine Finset.sum_congr rfl fun k' hk => ?_
    have e := (Finset.mem_filter.1 hk).2
    subst e
    exact max_eq_right ((hn k').1 h0)
  · rw [max_eq_left h0]
    refine Finset.sum_eq_zero fun k' hk => ?_
    have e := (Finset.mem_filter.1 hk).2
    subst e
    exact max_eq_left ((hn k').2 h0)

omit [Fintype κ] in
theorem SplitWeights.neg {r : κ' → κ} {K : κ → μ → α} {K' : κ' → μ → α} (h : SplitWeights r K K') (o : μ) (k : κ) :
    ∑ k' with r k' = k, min 0 (K' k' o) = min 0 (K k o) := by
  obtain ⟨hs, hn⟩ := h o
  rcases le_total 0 (K k o) with h0 | h0
  · rw [min_eq_left h0]
    refine Finset.sum_eq_zero fun k' hk => ?_
    have e := (Finset.mem_filter.1 hk).2
    subst e
    exact min_eq_left ((hn k').1 h0)
  · rw [min_eq_right h0, ← hs k]
    refine Finset.sum_congr rfl fun k' hk => ?_
    have e := (Finset.mem_filter.1 hk).2
    subst e
    exact min_eq_right ((hn k').2 h0)

/-- A Dense layer that reads copies. -/
theorem denseT_copies {D : PertDomain X ι α} {m : Mode} {r : κ' → κ} {f : Full X ι κ α} {f' : Full X ι κ' α} (h : SubFull D D id r f f') (hx : f'.x = f.x)
    {K : κ → μ → α} {K' : κ' → μ → α} (hK : SplitWeights r K K') (b : μ → α) : denseT D m false K' b f' = denseT D m false K b f := by
  have hx : (f'.tighten D m false true).x = (f.tighten D m false true).x := by
    have : ∀ {κ : Type} (f : Full X ι κ α), (f.tighten D m false true).x = f.x := fun f => by
      unfold Full.tighten
      split
      · dsimp only; split <;> rfl
      · rfl
    rw [this, this, hx]
  have h := h.tighten (m := m) false true
  have kp : ∀ (v : κ → α) (v' : κ' → α), (∀ k, v' k = v (r k)) → ∀ o, ∑ t, max 0 (K' t o) * v' t = ∑ t, max 0 (K t o) * v t := fun v v' hv o => by
    simp only [hv]; exact sum_copies r _ _ v (hK.pos o)
  have kn : ∀ (v : κ → α) (v' : κ' → α), (∀ k, v' k = v (r k)) → ∀ o, ∑ t, min 0 (K' t o) * v' t = ∑ t, min 0 (K t o) * v t := fun v v' hv o => by
    simp only [hv]; exact sum_copies r _ _ v (hK.neg o)
  simp only [denseT, Full.mk.injEq]
  refine ⟨hx, ?_, ?_, ?_, ?_, ?_, ?_, ?_⟩
  · funext o; rw [kp _ _ h.uc, kn _ _ h.lc]
  · funext i o; rw [kp _ _ (h.wu i), kn _ _ (h.wl i), id]
  · funext o; rw [kp _ _ h.bu, kn _ _ h.bl]
  · funext o; rw [kp _ _ h.lc, kn _ _ h.uc]
  · funext i o; rw [kp _ _ (h.wl i), kn _ _ (h.wu i), id]
  · funext o; rw [kp _ _ h.bl, kn _ _ h.bu]
  · simp

/-- Chaining through a layer with copies: the rows below are shared out. -/
theorem merge_copies {r : κ' → κ} {c : κ' → α} (hc : Shares r c) {p : Back ι κ α} {p' : Back ι κ' α} (hp : SubBack id r p p') {b : Back κ ν α}
    {b' : Back κ' ν α} (hu : ∀ k n, b'.wu k n = c k * b.wu (r k) n) (hl : ∀ k n, b'.wl k n = c k * b.wl (r k) n) (hbu : b'.bu = b.bu) (hbl : b'.bl = b.bl) :
    mergeWithPrevious p' b' = mergeWithPrevious p b := by
  have key : ∀ (g : α → α), (∀ a w, 0 ≤ a → g (a * w) = a * g w) → ∀ (v w : κ → α) (v' w' : κ' → α), (∀ k, v' k = v (r k)) → (∀ k, w' k = c k * w (r k)) →
      ∑ k, v' k * g (w' k) = ∑ k, v k * g (w k) := fun g hg v w v' w' hv hw => by
    have := sum_copies r c (fun _ => 1) (fun k => v k * g (w k)) hc.2
    simp only [one_mul] at this
    rw [← this]
    refine Finset.sum_congr rfl fun k _ => ?_
    rw [hv, hw, hg _ _ (hc.1 k)]; ring
  have kp := key (fun a => max a 0) fun a w ha => by rw [mul_max_of_nonneg _ _ ha, mul_zero]
  have kn := key (fun a => min a 0) fun a w ha => by rw [mul_min_of_nonneg _ _ ha, mul_zero]
  simp only [mergeWithPrevious, Back.mk.injEq, hbu, hbl]
  refine ⟨?_, ?_, ?_, ?_⟩
  · funext i n
    rw [kp _ (fun k => b.wu k n) _ _ (hp.wu i) fun k => hu k n, kn _ (fun k => b.wu k n) _ _ (hp.wl i) fun k => hu k n, id]
  · funext n
    rw [kp _ (fun k => b.wu k n) _ _ hp.bu fun k => hu k n, kn _ (fun k => b.wu k n) _ _ hp.bl fun k => hu k n]
  · funext i n
    rw [kp _ (fun k => b.wl k n) _ _ (hp.wl i) fun k => hl k n, kn _ (fun k => b.wl k n) _ _ (hp.wu i) fun k => hl k n, id]
  · funext n
    rw [kp _ (fun k => b.wl k n) _ _ hp.bl fun k => hl k n, kn _ (fun k => b.wl k n) _ _ hp.bu fun k => hl k n]

/-- The copies of a ReLU layer: the rows are shared out, the offsets add up. -/
theorem merge_diag_copies [DecidableEq κ'] {r : κ' → κ} {c : κ' → α} (hc : Shares r c) (wu bu wl bl : κ → α) {b : Back κ ν α} {b' : Back κ' ν α}
    (hu : ∀ k n, b'.wu k n = c k * b.wu (r k) n) (hl : ∀ k n, b'.wl k n = c k * b.wl (r k) n) (hbu : b'.bu = b.bu) (hbl : b'.bl = b.bl) :
    let B := mergeWithPrevious (Back.ofDiag wu bu wl bl) b
    let B' := mergeWithPrevious (Back.ofDiag (fun k => wu (r k)) (fun k => bu (r k)) (fun k => wl (r k)) fun k => bl (r k)) b'
    (∀ k n, B'.wu k n = c k * B.wu (r k) n) ∧ (∀ k n, B'.wl k n = c k * B.wl (r k) n) ∧ B'.bu = B.bu ∧ B'.bl = B.bl := by
  intro B B'
  have hp : ∀ (a w : α), 0 ≤ a → max (a * w) 0 = a * max w 0 := fun a w ha => by rw [mul_max_of_nonneg _ _ ha, mul_zero]
  have hn : ∀ (a w : α), 0 ≤ a → min (a * w) 0 = a * min w 0 := fun a w ha => by rw [mul_min_of_nonneg _ _ ha, mul_zero]
  have d : ∀ {κ : Type} [Fintype κ] [DecidableEq κ] (v g : κ → α) (i : κ), ∑ k, diagLike v i k * g k = v i * g i := fun v g i => by
    simp [diagLike]
  have s : ∀ (v w : κ → α), ∑ k, v (r k) * (c k * w (r k)) = ∑ k, v k * w k := fun v w => by
    have := sum_copies r c (fun _ => 1) (fun k => v k * w k) hc.2
    simp only [one_mul] at this
    rw [← this]
    exact Finset.sum_congr rfl fun k _ => by ring
  refine ⟨fun k n => ?_, fun k n => ?_, ?_, ?_⟩
  · simp only [B, B', mergeWithPrevious, Back.ofDiag, d, hu, hp _ _ (hc.1 _), hn _ _ (hc.1 _)]; ring
  · simp only [B, B', mergeWithPrevious, Back.ofDiag, d, hl, hp _ _ (hc.1 _), hn _ _ (hc.1 _)]; ring
  · funext n
    simp only [B, B', mergeWithPrevious, Back.ofDiag, hu, hp _ _ (hc.1 _), hn _ _ (hc.1 _), hbu]
    rw [s bu fun k => max (b.wu k n) 0, s bl fun k => min (b.wu k n) 0]
  · funext n
    simp only [B, B', mergeWithPrevious, Back.ofDiag, hl, hp _ _ (hc.1 _), hn _ _ (hc.1 _), hbl]
    rw [s bl fun k => max (b.wl k n) 0, s bu fun k => min (b.wl k n) 0]

end

section Nodes
variable {X ι α : Type} [Fintype ι] [DecidableEq ι] [Field α] [LinearOrder α]

omit [Fintype ι] [DecidableEq ι] in
theorem subFull_self (D : PertDomain X ι α) {κ κ' : Type} (r : κ' → κ) (f : Full X ι κ α) :
    SubFull D D id r f ⟨f.x, fun k => f.uc (r k), fun i k => f.wu i (r k), fun k => f.bu (r k), fun k => f.lc (r k), fun i k => f.wl i (r k), fun k => f.bl (r k),
      fun k => f.h (r k), fun k => f.g (r k)⟩ :=
  ⟨fun _ _ _ => ⟨rfl, rfl⟩, fun _ => rfl, fun _ => rfl, fun _ _ => rfl, fun _ _ => rfl, fun _ => rfl, fun _ => rfl, fun i hi => absurd ⟨i, rfl⟩ hi,
    fun i hi => absurd ⟨i, rfl⟩ hi⟩

theorem subCfg_self (C : CrownCfg X ι α) : SubCfg id C C :=
  ⟨Function.injective_id, rfl, rfl, rfl, rfl, subFull_self C.D id C.inp, fun _ _ _ _ => ⟨rfl, rfl⟩⟩

/-- The entries of a result are computed one by one. -/
theorem CrownCfg.next_cols (C : CrownCfg X ι α) {κ ν ν' : Type} (n : Net α ι κ) (q : ν' → ν) (b : Back κ ν α) (b' : Back κ ν' α) (h : SubBack id q b b') :
    SameResult (SubBack id q) ((C.node n).next ν b) ((C.node n).next ν' b') :=
  ((subCfg_self C).node (Net.Keeps.refl n)).2 ν ν' q b b' h

variable [IsStrictOrderedRing α] {κ₀ κ κ' μ : Type} [Fintype κ₀] [DecidableEq κ₀] [Fintype κ] [DecidableEq κ] [Fintype κ'] [DecidableEq κ'] [Fintype μ]

/-- A hidden layer and the same one with copies, before the next layer is called. -/
theorem hidden_copies (D : PertDomain X ι α) (m : Mode) (eps : α) (slope : Slope) (inp : Full X ι ι α) (n0 : Net α ι κ₀) (K1 : κ₀ → κ → α) (b1 gf gb : κ → α)
    (r : κ' → κ) :
    SubFull D D id r ((Net.layer n0 (.dense K1 b1)).forward D m eps slope inp)
        ((Net.layer n0 (.dense (fun t k => K1 t (r k)) fun k => b1 (r k))).forward D m eps slope inp) ∧
    SubFull D D id r ((Net.layer (.layer n0 (.dense K1 b1)) (.relu gf gb)).forward D m eps slope inp)
        ((Net.layer (.layer n0 (.dense (fun t k => K1 t (r k)) fun k => b1 (r k))) (.relu (fun k => gf (r k)) fun k => gb (r k))).forward D m eps slope
          inp) := by
  have h := SubFull.dense (m := m) Function.injective_id (subFull_self D id (n0.forward D m eps slope inp)) r K1 b1 fun t ht => absurd ⟨t, rfl⟩ ht
  exact ⟨h, h.relu eps slope gf⟩

theorem forward_copies (D : PertDomain X ι α) (m : Mode) (eps : α) (slope : Slope) (inp : Full X ι ι α) (n0 : Net α ι κ₀) (K1 : κ₀ → κ → α)
    (b1 gf gb : κ → α) (r : κ' → κ) {K2 : κ → μ → α} {K2' : κ' → μ → α} (hK : SplitWeights r K2 K2') (b2 : μ → α) :
    (Net.layer (.layer (.layer n0 (.dense (fun t k => K1 t (r k)) fun k => b1 (r k))) (.relu (fun k => gf (r k)) fun k => gb (r k)))
        (.dense K2' b2)).forward D m eps slope inp =
      (Net.layer (.layer (.layer n0 (.dense K1 b1)) (.relu gf gb)) (.dense K2 b2)).forward D m eps slope inp := by
  have := (hidden_copies D m eps slope inp n0 K1 b1 gf gb r).2
  refine denseT_copies this ?_ hK b2
  have t : ∀ {κ : Type} (b1 b2 : Bool) (f : Full X ι κ α), (f.tighten D m b1 b2).x = f.x := fun b1 b2 f => by
    unfold Full.tighten
    split
    · dsimp only; split <;> rfl
    · rfl
  simp only [Net.forward, Lay.forward, reluT, denseT, t]

omit [Fintype κ] [DecidableEq κ'] in
theorem Shares.split {r : κ' → κ} {c : κ' → α} (hc : Shares r c) (K : κ → μ → α) : SplitWeights r K fun k o => c k * K (r k) o := by
  refine fun o => ⟨fun k => ?_, fun k => ⟨fun h => mul_nonneg (hc.1 k) h, fun h => mul_nonpos_of_nonneg_of_nonpos (hc.1 k) h⟩⟩
  rw [← one_mul (K k o), ← hc.2 k, Finset.sum_mul]
  exact Finset.sum_congr rfl fun k' hk => by dsimp only; rw [(Finset.mem_filter.1 hk).2]

omit [Fintype ι] [DecidableEq ι] [Field α] [LinearOrder α] [IsStrictOrderedRing α] [Fintype κ₀] [DecidableEq κ₀] [Fintype κ] [DecidableEq κ] [Fintype κ'] [DecidableEq κ'] [Fintype μ] in
theorem bind_eq_of_sameResult {A A' B : Type} {P : A → A' → Prop} {x : Except PyErr A} {x' : Except PyErr A'} {f : A → Except PyErr B} {f' : A' → Except PyErr B}
    (h : SameResult P x x') (hf : ∀ a a', P a a' → f' a' = f a) : (x' >>= f') = (x >>= f) := by
  cases x <;> cases x' <;> first | exact hf _ _ h | exact h.elim | (cases h; rfl)

omit [IsStrictOrderedRing α] [Fintype κ] [DecidableEq κ] [Fintype κ'] [DecidableEq κ'] in
theorem child_copies (C : CrownCfg X ι α) {n : Net α ι κ} {n' : Net α ι κ'} {r : κ' → κ}
    (hf : SubFull C.D C.D id r (n.forward C.D C.m C.eps C.slope C.inp) (n'.forward C.D C.m C.eps C.slope C.inp))
    (h : SameResult (SubBack id r) (C.node n).first (C.node n').first) :
    SameResult (SubFull C.D C.D id r) (C.childInput n (C.node n)) (C.childInput n' (C.node n')) := by
  unfold CrownCfg.childInput
  split
  · exact hf
  · exact h.map fun b b' hb => hb.convert (subFull_self C.D id C.inp) fun _ _ _ _ => ⟨rfl, rfl⟩

theorem node_copies (C : CrownCfg X ι α) (n0 : Net α ι κ₀) (K1 : κ₀ → κ → α) (b1 gf gb : κ → α) (r : κ' → κ) {c : κ' → α} (hc : Shares r c)
    (K2 : κ → μ → α) (b2 : μ → α) :
    C.node (.layer (.layer (.layer n0 (.dense (fun t k => K1 t (r k)) fun k => b1 (r k))) (.relu (fun k => gf (r k)) fun k => gb (r k)))
        (.dense (fun k o => c k * K2 (r k) o) b2)) =
      C.node (.layer (.layer (.layer n0 (.dense K1 b1)) (.relu gf gb)) (.dense K2 b2)) := by
  set N1 := Net.layer n0 (.dense K1 b1) with hN1
  set N1' := Net.layer n0 (.dense (fun t k => K1 t (r k)) fun k => b1 (r k)) with hN1'
  obtain ⟨f1, f2⟩ := hidden_copies C.D C.m C.eps C.slope C.inp n0 K1 b1 gf gb r
  have hD : SubBack id r (backwardDense K1 b1) (backwardDense (fun t k => K1 t (r k)) fun k => b1 (r k)) :=
    ⟨fun _ _ => rfl, fun _ _ => rfl, fun _ => rfl, fun _ => rfl, fun t ht => absurd ⟨t, rfl⟩ ht, fun t ht => absurd ⟨t, rfl⟩ ht⟩
  have h1 : SameResult (SubBack id r) (C.node N1).first (C.node N1').first := by
    simp only [hN1, hN1', CrownCfg.node]
    cases C.childInput n0 (C.node n0) with
    | error e => rfl
    | ok f => exact C.next_cols n0 r _ _ hD
  have c1 := child_copies C f1 h1
  have nx : ∀ (ν : Type) (B : Back κ ν α) (B' : Back κ' ν α),
      mergeWithPrevious (backwardDense (fun t k => K1 t (r k)) fun k => b1 (r k)) B' = mergeWithPrevious (backwardDense K1 b1) B →
      (C.node N1').next ν B' = (C.node N1).next ν B := fun ν B B' h => by
    simp only [hN1, hN1', CrownCfg.node]
    cases C.childInput n0 (C.node n0) with
    | error e => rfl
    | ok f =>
      show (C.node n0).next ν _ = (C.node n0).next ν _
      congr 1
  have h2 : SameResult (SubBack id r) (C.node (.layer N1 (.relu gf gb))).first (C.node (.layer N1' (.relu (fun k => gf (r k)) fun k => gb (r k)))).first := by
    have c1' := c1
    simp only [CrownCfg.node] at c1' ⊢
    refine SameResult.bind (SameResult.map c1 (Q := fun B B' => SubBack id r (mergeWithPrevious (backwardDense K1 b1) B)
      (mergeWithPrevious (backwardDense (fun t k => K1 t (r k)) fun k => b1 (r k)) B')) fun a a' h => ?_) fun B B' h => ?_
    · have h := h.tighten (m := C.m) true true
      have d : ∀ {κ : Type} [Fintype κ] [DecidableEq κ] (v w : κ → α) (g : α → α) (hg : g 0 = 0) (k : κ), ∑ t, v t * g (diagLike w t k) = v k * g (w k) :=
        fun v w g hg k => by
          rw [Finset.sum_eq_single k (fun t _ ht => by rw [diagLike, if_neg ht, hg, mul_zero]) (by simp), diagLike, if_pos rfl]
      have dp := fun {κ : Type} [Fintype κ] [DecidableEq κ] (v w : κ → α) (k : κ) => d v w (fun a => max a 0) (max_self 0) k
      have dn := fun {κ : Type} [Fintype κ] [DecidableEq κ] (v w : κ → α) (k : κ) => d v w (fun a => min a 0) (min_self 0) k
      refine ⟨?_, ?_, ?_, ?_, fun t ht => absurd ⟨t, rfl⟩ ht, fun t ht => absurd ⟨t, rfl⟩ ht⟩ <;> intros <;>
        simp only [mergeWithPrevious, Lay.backward, backwardRelu, Back.ofDiag, backwardDense, dp, dn, h.uc, h.lc, id]
    · simp only [hN1, hN1', CrownCfg.node]
      cases C.childInput n0 (C.node n0) with
      | error e => rfl
      | ok f => exact C.next_cols n0 r _ _ h
  have c2 := child_copies C f2 h2
  have nx2 : ∀ (ν : Type) (B : Back κ ν α) (B' : Back κ' ν α), (∀ k n, B'.wu k n = c k * B.wu (r k) n) → (∀ k n, B'.wl k n = c k * B.wl (r k) n) →
      B'.bu = B.bu → B'.bl = B.bl → (C.node (.layer N1' (.relu (fun k => gf (r k)) fun k => gb (r k)))).next ν B' = (C.node (.layer N1 (.relu gf gb))).next ν B :=
    fun ν B B' hu hl hbu hbl => by
      conv_lhs => rw [CrownCfg.node]
      conv_rhs => rw [CrownCfg.node]
      refine bind_eq_of_sameResult (SameResult.map c1 (P := SubFull C.D C.D id r) (Q := fun b b' => ∃ wu bu wl bl, b = Back.ofDiag wu bu wl bl ∧
        b' = Back.ofDiag (fun k => wu (r k)) (fun k => bu (r k)) (fun k => wl (r k)) fun k => bl (r k)) fun a a' h => ?_) fun b b' h => ?_
      · have h := h.tighten (m := C.m) true true
        refine ⟨_, _, _, _, rfl, ?_⟩
        simp only [Lay.backward, backwardRelu, h.uc, h.lc]
      · obtain ⟨wu, bu, wl, bl, rfl, rfl⟩ := h
        obtain ⟨e1, e2, e3, e4⟩ := merge_diag_copies hc wu bu wl bl hu hl hbu hbl
        exact nx _ _ _ (merge_copies hc hD e1 e2 e3 e4)
  conv_lhs => rw [CrownCfg.node]
  conv_rhs => rw [CrownCfg.node]
  rw [CrownNode.mk.injEq]
  constructor
  · refine bind_eq_of_sameResult (SameResult.map c2 (P := SubFull C.D C.D id r) (Q := fun b b' => b = backwardDense K2 b2 ∧
      b' = backwardDense (fun k o => c k * K2 (r k) o) b2) fun a a' _ => ⟨rfl, rfl⟩) fun b b' h => ?_
    obtain ⟨rfl, rfl⟩ := h
    exact nx2 _ _ _ (fun _ _ => rfl) (fun _ _ => rfl) rfl rfl
  · funext ν b0
    refine bind_eq_of_sameResult (SameResult.map c2 (P := SubFull C.D C.D id r) (Q := fun b b' => b = backwardDense K2 b2 ∧
      b' = backwardDense (fun k o => c k * K2 (r k) o) b2) fun a a' _ => ⟨rfl, rfl⟩) fun b b' h => ?_
    obtain ⟨rfl, rfl⟩ := h
    refine nx2 _ _ _ (fun k n => ?_) (fun k n => ?_) rfl rfl <;>
      simp only [mergeWithPrevious, backwardDense, mul_add, Finset.mul_sum, mul_assoc]

end Nodes

end Decomon
