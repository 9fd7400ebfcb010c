import Verif.Lemmas.FoldNet

/-! Helper lemmas on the merging of linear layers in a network. -/

namespace Decomon

/-! ### Domains -/

section Domains
variable {ι α : Type} [Fintype ι] [Field α] [LinearOrder α] [IsStrictOrderedRing α]

theorem box_scales (x : (ι → α) × (ι → α)) : (boxDomain (ι := ι) (α := α)).Scales x := by
  intro c d w b
  simp only [boxDomain, getUpperBox, getLowerBox, mul_add, Finset.mul_sum]
  constructor
  · intro hc
    have h1 : ∀ a : α, max (c * a) 0 = c * max a 0 := fun a => by rw [mul_max_of_nonneg _ _ hc, mul_zero]
    have h2 : ∀ a : α, min (c * a) 0 = c * min a 0 := fun a => by rw [mul_min_of_nonneg _ _ hc, mul_zero]
    simp only [h1, h2, mul_assoc, add_assoc, and_self]
  · intro hc
    have h1 : ∀ a : α, max (c * a) 0 = c * min a 0 := fun a => by rw [mul_min_nonpos hc, mul_zero]
    have h2 : ∀ a : α, min (c * a) 0 = c * max a 0 := fun a => by rw [mul_max_nonpos hc, mul_zero]
    simp only [h1, h2, mul_assoc, add_assoc]
    constructor <;> (congr 1; exact Finset.sum_congr rfl fun i _ => add_comm _ _)

end Domains

/-! ### Forward -/

section Forward
variable {X ι α : Type} [Field α] [LinearOrder α] [IsStrictOrderedRing α] {D : PertDomain X ι α} {m : Mode}

theorem sameInfo_x {κ : Type} {f g : Full X ι κ α} (h : SameInfo D m f g) : f.x = g.x := by
  have := h.x
  cases m <;> exact this

theorem drop_same {κ : Type} [Fintype κ] [DecidableEq κ] (l : Lay α κ κ) (hl : l.Plain) (h : ∀ y, l.eval y = y) (eps : α) (s : Slope)
    (f : Full X ι κ α) : SameInfo D m (l.forward D m eps s f) f := by
  refine (plain_forward l hl eps s f).trans ?_
  have hc : l.coef = fun i k => if k = i then 1 else 0 := by funext i k; simp only [Lay.coef, h, sub_zero]
  have ho : l.offset = fun _ => 0 := by funext k; simp only [Lay.offset, h]
  rw [hc, ho, denseT_eq]
  have m1 : ∀ (i k : κ), max 0 (if k = i then (1 : α) else 0) = if k = i then 1 else 0 := fun i k => by split_ifs <;> simp
  have m2 : ∀ (i k : κ), min 0 (if k = i then (1 : α) else 0) = 0 := fun i k => by split_ifs <;> simp
  have key : Agree m (linMap m (fun i k : κ => if k = i then (1 : α) else 0) (fun _ => 0) (f.tighten D m false true)) (f.tighten D m false true) := by
    refine ⟨rfl, fun a => ?_, fun a => ?_, fun a => ?_, fun a => ?_, fun a => ?_, fun a => ?_⟩ <;>
      simp only [linMap, a, if_true, m1, m2, zero_mul, Finset.sum_const_zero, add_zero, ite_mul, one_mul, Finset.sum_ite_eq, Finset.mem_univ]
  refine (agree_tighten (D := D) key true).trans ?_
  rw [tighten_twice]
  exact Agree.rfl'

/-- Merging linear layers of which one reads one input per output leaves the bounds unchanged, up to the tightening. -/
theorem collapse_same (eps : α) (s : Slope) (inp : Full X ι ι α) (hD : D.Scales inp.x) {κ : Type} {n n' : Net α ι κ}
    (h : Net.Collapse True n n') : SameInfo D m (n.forward D m eps s inp) (n'.forward D m eps s inp) := by
  induction h with
  | refl n => exact SameInfo.rfl'
  | layer _ l ih => exact layer_same l eps s ih
  | merge op _ _ ih0 ih1 =>
    refine merge_same op eps ?_ ?_ ?_ ?_ ih0 ih1 <;> (rw [Net.forward_x]; exact hD)
  | two n l1 l2 l h1 h2 h hl ho =>
    simp only [Net.forward]
    set f := n.forward D m eps s inp with hf
    have hx : D.Scales f.x := by rw [hf, Net.forward_x]; exact hD
    have a := (layer_same l2 eps s (plain_forward (D := D) (m := m) l1 h1 eps s f)).trans (plain_forward l2 h2 eps s _)
    have b := denseT_comp (D := D) (m := m) l1.coef l1.offset l2.coef l2.offset f hx (ho trivial)
    obtain ⟨c1, c2⟩ := coef_comp l1 l2 l h2 hl
    rw [← c1, ← c2] at b
    exact (a.trans b).trans (plain_forward l h eps s f).symm
  | drop n l h hl => exact drop_same l h hl eps s _
  | trans _ _ ih ih' => exact ih.trans ih'

theorem collapse_wf {one : Prop} {κ : Type} {n n' : Net α ι κ} (h : Net.Collapse one n n') (hn : n.WF) : n'.WF := by
  have pw : ∀ {κ κ' : Type} (l : Lay α κ κ'), l.Plain → l.WF := fun l hl => by
    cases l with
    | relu => exact hl.elim
    | batchNorm => exact hl
    | _ => trivial
  induction h with
  | refl n => exact hn
  | layer _ l ih => exact ⟨ih hn.1, hn.2⟩
  | merge op _ _ ih0 ih1 => exact ⟨ih0 hn.1, ih1 hn.2⟩
  | two n l1 l2 l h1 h2 h hl ho => exact ⟨hn.1.1, pw l h⟩
  | drop n l h hl => exact hn.1
  | trans _ _ ih ih' => exact ih' (ih hn)

theorem collapse_eval {one : Prop} {κ : Type} {n n' : Net α ι κ} (h : Net.Collapse one n n') (p : ι → α) : n'.eval p = n.eval p := by
  induction h with
  | refl n => rfl
  | layer _ l ih => simp only [Net.eval, ih]
  | merge op _ _ ih0 ih1 => simp only [Net.eval, ih0, ih1]
  | two n l1 l2 l h1 h2 h hl ho => exact hl _
  | drop n l h hl => exact (hl _).symm
  | trans _ _ ih ih' => exact ih'.trans ih

omit [IsStrictOrderedRing α] in
/-- The sum of the positive parts exceeds the positive part of the sum as much as for the negative parts. -/
theorem posneg_sum {μ : Type} [Fintype μ] (p : μ → α) :
    ∑ t, max 0 (p t) - max 0 (∑ t, p t) = min 0 (∑ t, p t) - ∑ t, min 0 (p t) := by
  have h : ∀ a : α, max 0 a + min 0 a = a := fun a => by rw [max_add_min, zero_add]
  have h1 : ∑ t, max 0 (p t) + ∑ t, min 0 (p t) = ∑ t, p t := by
    rw [← Finset.sum_add_distrib]; exact Finset.sum_congr rfl fun t _ => h _
  have h2 := h (∑ t, p t)
  linear_combination h1 - h2

/-- One step gives smaller intervals than two. -/
theorem two_steps_le {κ μ : Type} [Fintype κ] [Fintype μ] (K1 : κ → μ → α) (b1 : μ → α) (c : μ → α) (b : α) (u l : κ → α) (hul : ∀ i, l i ≤ u i) :
    ∑ i, max 0 (∑ t, K1 i t * c t) * u i + ∑ i, min 0 (∑ t, K1 i t * c t) * l i + (∑ t, c t * b1 t + b) ≤
    ∑ t, max 0 (c t) * (∑ i, max 0 (K1 i t) * u i + ∑ i, min 0 (K1 i t) * l i + b1 t) +
      ∑ t, min 0 (c t) * (∑ i, max 0 (K1 i t) * l i + ∑ i, min 0 (K1 i t) * u i + b1 t) + b := by
  have e : ∑ t, max 0 (c t) * (∑ i, max 0 (K1 i t) * u i + ∑ i, min 0 (K1 i t) * l i + b1 t) +
      ∑ t, min 0 (c t) * (∑ i, max 0 (K1 i t) * l i + ∑ i, min 0 (K1 i t) * u i + b1 t) + b =
      ∑ i, (∑ t, max 0 (K1 i t * c t)) * u i + ∑ i, (∑ t, min 0 (K1 i t * c t)) * l i + (∑ t, c t * b1 t + b) := by
    simp only [fun i t => (posneg_mul (K1 i t) (c t)).1, fun i t => (posneg_mul (K1 i t) (c t)).2]
    have hb : ∑ t, c t * b1 t = ∑ t, max 0 (c t) * b1 t + ∑ t, min 0 (c t) * b1 t := by
      rw [← Finset.sum_add_distrib]
      refine Finset.sum_congr rfl fun t _ => ?_
      rw [← add_mul, max_add_min, zero_add]
    rw [hb]
    simp only [mul_add, Finset.sum_add_distrib, Finset.mul_sum, Finset.sum_mul, add_mul]
    rw [Finset.sum_comm (γ := κ), Finset.sum_comm (γ := κ), Finset.sum_comm (γ := κ), Finset.sum_comm (γ := κ)]
    simp only [mul_assoc]
    ring
  rw [e]
  have hle : ∑ i, max 0 (∑ t, K1 i t * c t) * u i + ∑ i, min 0 (∑ t, K1 i t * c t) * l i ≤
      ∑ i, (∑ t, max 0 (K1 i t * c t)) * u i + ∑ i, (∑ t, min 0 (K1 i t * c t)) * l i := by
    rw [← Finset.sum_add_distrib, ← Finset.sum_add_distrib]
    refine Finset.sum_le_sum fun i _ => ?_
    have h := posneg_sum fun t => K1 i t * c t
    have h0 : max 0 (∑ t, K1 i t * c t) ≤ ∑ t, max 0 (K1 i t * c t) :=
      max_le (Finset.sum_nonneg fun t _ => le_max_left _ _) (Finset.sum_le_sum fun t _ => le_max_right _ _)
    have h2 := congrArg (· * l i) h
    nlinarith [mul_nonneg (sub_nonneg.2 h0) (sub_nonneg.2 (hul i)), h2]
  linarith

theorem same_tighter {κ : Type} {f g : Full X ι κ α} (h : SameInfo D .ibp f g) : Tighter f g := fun k => by
  have h1 := congrFun (h.uc rfl) k
  have h2 := congrFun (h.lc rfl) k
  have e : ∀ f : Full X ι κ α, f.tighten D .ibp false true = f := fun f => rfl
  rw [e, e] at h1 h2
  exact ⟨h2.symm.le, h1.le⟩

theorem tighter_trans {κ : Type} {f g k : Full X ι κ α} (h : Tighter f g) (h' : Tighter g k) : Tighter f k :=
  fun i => ⟨(h' i).1.trans (h i).1, (h i).2.trans (h' i).2⟩

theorem denseT_le {κ μ ν : Type} [Fintype κ] [Fintype μ] (K1 : κ → μ → α) (b1 : μ → α) (K2 : μ → ν → α) (b2 : ν → α) (f : Full X ι κ α)
    (hf : ∀ k, f.lc k ≤ f.uc k) :
    Tighter (denseT D .ibp false (fun i o => ∑ t, K1 i t * K2 t o) (fun o => ∑ t, K2 t o * b1 t + b2 o) f)
      (denseT D .ibp false K2 b2 (denseT D .ibp false K1 b1 f)) := by
  intro o
  have e : ∀ {κ : Type} (f : Full X ι κ α), f.tighten D .ibp false true = f := fun f => rfl
  simp only [denseT_eq, e, linMap, getIbp, if_true]
  refine ⟨?_, two_steps_le K1 b1 (fun t => K2 t o) (b2 o) f.uc f.lc hf⟩
  have h' := two_steps_le K1 (fun t => -b1 t) (fun t => K2 t o) (-b2 o) (fun i => -f.lc i) (fun i => -f.uc i) (fun i => neg_le_neg (hf i))
  simp only [mul_neg, mul_add, Finset.sum_neg_distrib, Finset.sum_add_distrib] at h' ⊢
  linarith

/-- Merging linear layers can only shrink the intervals of forward-ibp. -/
theorem collapse_tighter [Fintype ι] {one : Prop} (eps : α) (he : 0 < eps) (s : Slope) (inp : Full X ι ι α) (S : Set (ι → α)) (hS : D.Sound inp.x S) (p : ι → α)
    (hp : p ∈ S) (hi : Valid .ibp false inp p p) {κ : Type} {n n' : Net α ι κ} (h : Net.Collapse one n n') (hn : n.WF) :
    Tighter (n'.forward D .ibp eps s inp) (n.forward D .ibp eps s inp) := by
  have ord : ∀ {κ : Type} (n : Net α ι κ), n.WF → ∀ k, (n.forward D .ibp eps s inp).lc k ≤ (n.forward D .ibp eps s inp).uc k :=
    fun n hn k => by
      have := (Net.forward_valid D .ibp eps he s inp S hS p hp hi n hn (n.sliverOK_ibp D eps s inp)).const rfl k
      exact this.1.trans this.2
  induction h with
  | refl n => exact fun k => ⟨le_rfl, le_rfl⟩
  | layer _ l ih => exact tighter_layer rfl eps s s l hn.2 (ih hn.1)
  | merge op h0 h1 ih0 ih1 =>
    exact tighter_merge rfl eps op (ih0 hn.1) (ih1 hn.2) fun _ => ⟨ord _ (collapse_wf h0 hn.1), ord _ (collapse_wf h1 hn.2)⟩
  | two n l1 l2 l h1 h2 h hl ho =>
    simp only [Net.forward]
    have hord := ord n hn.1.1
    set f := n.forward D .ibp eps s inp with hf
    have a := (layer_same l2 eps s (plain_forward (D := D) (m := .ibp) l1 h1 eps s f)).trans (plain_forward l2 h2 eps s _)
    have b := denseT_le (D := D) l1.coef l1.offset l2.coef l2.offset f hord
    obtain ⟨c1, c2⟩ := coef_comp l1 l2 l h2 hl
    rw [← c1, ← c2] at b
    exact tighter_trans (same_tighter (plain_forward l h eps s f)) (tighter_trans b (same_tighter a.symm))
  | drop n l h hl => exact same_tighter (drop_same l h hl eps s _).symm
  | trans h h' ih ih' => exact tighter_trans (ih' (collapse_wf h hn)) (ih hn)

end Forward

/-! ### Backward -/

section Crown
variable {X ι α : Type} [Fintype ι] [di : DecidableEq ι] [Field α] [LinearOrder α] [IsStrictOrderedRing α]

omit [Fintype ι] [DecidableEq ι] in
theorem plain_backward {κ κ' : Type} [Fintype κ] [DecidableEq κ] (D : PertDomain X ι α) (m : Mode) (eps : α) (s : Slope) (l : Lay α κ κ')
    (hl : l.Plain) (f : Full X ι κ α) : l.backward D m eps s f = backwardDense l.coef l.offset := by
  cases l with
  | dense K b =>
    have h1 : (Lay.dense K b).coef = K := by funext i o; exact coef_dense K b i o
    have h2 : (Lay.dense K b).offset = b := by funext o; simp [Lay.offset, Lay.eval]
    rw [h1, h2]; rfl
  | linear L K b =>
    have h1 : (Lay.linear L K b).coef = toeplitz L K := by
      funext i o
      rw [coef_linear]
      refine Finset.sum_congr rfl fun t _ => ?_
      cases L.src o t <;> simp [mul_comm]
    have h2 : (Lay.linear L K b).offset = b := by
      funext o
      simp only [Lay.offset, Lay.eval]
      rw [Finset.sum_eq_zero fun t _ => by cases L.src o t <;> simp, zero_add]
    rw [h1, h2]; rfl
  | relu gf gb => exact hl.elim
  | batchNorm g b mu sd =>
    have h1 : (fun i k => (if i = k then 1 else 0) * (g i / sd i)) = (Lay.batchNorm g b mu sd).coef := by
      funext i k
      rw [coef_batchNorm]
      by_cases h : i = k
      · subst h; simp
      · simp [h, Ne.symm h]
    have h2 : (fun k => b k - g k / sd k * mu k) = (Lay.batchNorm g b mu sd).offset := by
      funext k
      simp only [Lay.offset, Lay.eval]
      ring
    rw [← h1, ← h2]; rfl
  | reshape e =>
    have h1 : (fun i k => if i = e k then 1 else 0) = (Lay.reshape (α := α) e).coef := by
      funext i k
      rw [coef_reshape]
    rw [← h1]; rfl
  | skip =>
    have h1 : (fun i k => if i = k then 1 else 0) = (Lay.skip (α := α) (κ := κ)).coef := by
      funext i k
      rw [coef_skip]
    rw [← h1]; rfl

omit [Fintype ι] [DecidableEq ι] in
theorem merge_exact {κ μ ν : Type} [Fintype μ] (K : κ → μ → α) (c : μ → α) (b : Back μ ν α) : mergeWithPrevious (backwardDense K c) b =
    ⟨fun i n => ∑ k, K i k * b.wu k n, fun n => ∑ k, c k * b.wu k n + b.bu n, fun i n => ∑ k, K i k * b.wl k n,
      fun n => ∑ k, c k * b.wl k n + b.bl n⟩ := by
  unfold mergeWithPrevious backwardDense
  simp only [← Finset.sum_add_distrib, ← mul_add, max_add_min, add_zero]

omit [Fintype ι] [DecidableEq ι] in
theorem merge_merge {κ μ ν o : Type} [Fintype μ] [Fintype ν] (K1 : κ → μ → α) (c1 : μ → α) (K2 : μ → ν → α) (c2 : ν → α) (b : Back ν o α) :
    mergeWithPrevious (backwardDense K1 c1) (mergeWithPrevious (backwardDense K2 c2) b) =
      mergeWithPrevious (backwardDense (fun i o => ∑ t, K1 i t * K2 t o) (fun o => ∑ t, K2 t o * c1 t + c2 o)) b := by
  have e : ∀ (a : μ → α) (B : ν → α), ∑ k, a k * ∑ t, K2 k t * B t = ∑ t, (∑ k, a k * K2 k t) * B t := fun a B => by
    simp only [Finset.mul_sum, Finset.sum_mul]
    rw [Finset.sum_comm]
    simp only [mul_assoc]
  simp only [merge_exact]
  simp only [e, add_mul, Finset.sum_add_distrib, add_assoc, mul_comm (K2 _ _) (c1 _)]

omit [Fintype ι] [DecidableEq ι] in
theorem merge_dense {κ μ ν : Type} [Fintype μ] (K1 : κ → μ → α) (c1 : μ → α) (K2 : μ → ν → α) (c2 : ν → α) :
    mergeWithPrevious (backwardDense K1 c1) (backwardDense K2 c2) =
      backwardDense (fun i o => ∑ t, K1 i t * K2 t o) (fun o => ∑ t, K2 t o * c1 t + c2 o) := by
  rw [merge_exact]
  simp only [backwardDense, mul_comm (K2 _ _) (c1 _)]

omit [Fintype ι] [DecidableEq ι] in
theorem merge_identity_right {κ μ : Type} [Fintype μ] [DecidableEq μ] (a : Back κ μ α) : mergeWithPrevious a Back.identity = a := by
  obtain ⟨wu, bu, wl, bl⟩ := a
  have m1 : ∀ i k : μ, max (if i = k then (1 : α) else 0) 0 = if i = k then 1 else 0 := fun i k => by split_ifs <;> simp
  have m2 : ∀ i k : μ, min (if i = k then (1 : α) else 0) 0 = 0 := fun i k => by split_ifs <;> simp
  unfold mergeWithPrevious Back.identity diagLike
  simp only [m1, m2, mul_zero, Finset.sum_const_zero, add_zero, mul_ite, mul_one, Finset.sum_ite_eq', Finset.mem_univ, if_true]

omit [Fintype ι] [DecidableEq ι] in
theorem merge_identity_left {μ ν : Type} [Fintype μ] [DecidableEq μ] (b : Back μ ν α) : mergeWithPrevious Back.identity b = b := by
  obtain ⟨wu, bu, wl, bl⟩ := b
  have e : (Back.identity : Back μ μ α) = backwardDense (fun i k => if i = k then 1 else 0) (fun _ => 0) := rfl
  rw [e, merge_exact]
  simp

/-- Either all the calls on a node succeed, or all raise the same exception. -/
def CrownNode.Uniform {κ : Type} (a : CrownNode ι κ α) : Prop :=
  ((∃ b, a.first = .ok b) ∧ ∀ ν b, ∃ b', a.next ν b = .ok b') ∨ ∃ e, a.first = .error e ∧ ∀ ν b, a.next ν b = .error e

variable (C : CrownCfg X ι α)

theorem node_uniform {κ : Type} (n : Net α ι κ) : (C.node n).Uniform := by
  have hch : ∀ {κ : Type} (n : Net α ι κ), (C.node n).Uniform →
      (∃ f, C.childInput n (C.node n) = .ok f) ∨ ∃ e, C.childInput n (C.node n) = .error e ∧ (C.node n).first = .error e := by
    intro κ n h
    unfold CrownCfg.childInput
    by_cases hu : C.useForward = true
    · rw [if_pos hu]; exact .inl ⟨_, rfl⟩
    · rw [if_neg hu]
      rcases h with ⟨⟨b, hb⟩, -⟩ | ⟨e, he, -⟩
      · rw [hb]; exact .inl ⟨_, rfl⟩
      · rw [he]; exact .inr ⟨e, rfl, rfl⟩
  induction n with
  | input => exact .inl ⟨⟨_, rfl⟩, fun ν b => ⟨_, rfl⟩⟩
  | layer n l ih =>
    unfold CrownNode.Uniform
    simp only [CrownCfg.node]
    rcases hch n ih with ⟨f, hf⟩ | ⟨e, he, he'⟩
    · rw [hf]
      rcases ih with ⟨-, h2⟩ | ⟨e, -, h2⟩
      · exact .inl ⟨h2 _ _, fun ν b => h2 _ _⟩
      · exact .inr ⟨e, h2 _ _, fun ν b => h2 _ _⟩
    · rw [he]; exact .inr ⟨e, rfl, fun ν b => rfl⟩
  | merge op n0 n1 ih0 ih1 =>
    unfold CrownNode.Uniform
    simp only [CrownCfg.node]
    rcases hch n0 ih0 with ⟨f, hf⟩ | ⟨e, he, -⟩
    · rw [hf]
      rcases hch n1 ih1 with ⟨f, hf⟩ | ⟨e, he, -⟩
      · rw [hf]; exact .inr ⟨_, rfl, fun ν b => rfl⟩
      · rw [he]; exact .inr ⟨e, rfl, fun ν b => rfl⟩
    · rw [he]; exact .inr ⟨e, rfl, fun ν b => rfl⟩

theorem node_identity {κ : Type} [d : DecidableEq κ] (n : Net α ι κ) : (C.node n).next κ Back.identity = (C.node n).first := by
  cases n with
  | input =>
    obtain rfl : d = di := Subsingleton.elim _ _
    simp only [CrownCfg.node, merge_identity_left]
  | layer n l =>
    simp only [CrownCfg.node, merge_identity_right]
  | merge op n0 n1 => rfl

theorem node_ext {κ : Type} {a b : CrownNode ι κ α} (h1 : a.first = b.first) (h2 : ∀ ν c, a.next ν c = b.next ν c) : a = b := by
  obtain ⟨f, g⟩ := a
  obtain ⟨f', g'⟩ := b
  obtain rfl : f = f' := h1
  obtain rfl : g = g' := by funext ν c; exact h2 ν c
  rfl

/-- The call of a linear layer on a node. -/
theorem node_plain {κ μ : Type} [Fintype κ] [DecidableEq κ] [Fintype μ] (n : Net α ι κ) (l : Lay α κ μ) (hl : l.Plain) :
    C.node (.layer n l) = ⟨(C.node n).next μ (backwardDense l.coef l.offset),
      fun ν b => (C.node n).next ν (mergeWithPrevious (backwardDense l.coef l.offset) b)⟩ := by
  have h := node_uniform C n
  simp only [CrownCfg.node, CrownCfg.childInput]
  have hb : l.backward C.D C.m C.eps C.slope = fun _ => backwardDense l.coef l.offset := by
    funext f; exact plain_backward _ _ _ _ l hl f
  rw [hb]
  by_cases hu : C.useForward = true
  · rw [if_pos hu]; rfl
  · rw [if_neg hu]
    rcases h with ⟨⟨b, hb⟩, -⟩ | ⟨e, he, he'⟩
    · rw [hb]; rfl
    · rw [he]
      refine node_ext ?_ ?_
      · exact (he' _ _).symm
      · exact fun ν b => (he' _ _).symm

/-- Merging linear layers does not change the result of the backward pass. -/
theorem collapse_node {one : Prop} (hone : C.useForward = true → one ∧ C.D.Scales C.inp.x) {κ : Type} {n n' : Net α ι κ}
    (h : Net.Collapse one n n') : C.node n = C.node n' := by
  have same : ∀ {κ : Type} {n n' : Net α ι κ}, Net.Collapse one n n' → C.useForward = true →
      SameInfo C.D C.m (n.forward C.D C.m C.eps C.slope C.inp) (n'.forward C.D C.m C.eps C.slope C.inp) := by
    intro κ n n' h hu
    obtain ⟨ho, hD⟩ := hone hu
    rw [eq_true ho] at h
    exact collapse_same C.eps C.slope C.inp hD h
  induction h with
  | refl n => rfl
  | @layer κ κ' _ _ _ n n' h l ih =>
    simp only [CrownCfg.node, CrownCfg.childInput, ih]
    by_cases hu : C.useForward = true
    · simp only [if_pos hu]
      have ht := (same h hu).tight
      have : l.backward C.D C.m C.eps C.slope (n.forward C.D C.m C.eps C.slope C.inp) =
          l.backward C.D C.m C.eps C.slope (n'.forward C.D C.m C.eps C.slope C.inp) := by
        cases l with
        | relu gf gb =>
          simp only [Lay.backward, backwardRelu, ht.tuc, ht.tlc]
        | _ => rfl
      simp only [Except.map, this]
    · simp only [if_neg hu]
  | merge op h0 h1 ih0 ih1 =>
    simp only [CrownCfg.node, CrownCfg.childInput, ih0, ih1]
    by_cases hu : C.useForward = true
    · simp only [if_pos hu]; rfl
    · simp only [if_neg hu]
  | two n l1 l2 l h1 h2 h hl ho =>
    rw [node_plain C _ l2 h2, node_plain C n l1 h1, node_plain C n l h]
    obtain ⟨c1, c2⟩ := coef_comp l1 l2 l h2 hl
    refine node_ext ?_ ?_
    · simp only [merge_dense, ← c1, ← c2]
    · intro ν b
      simp only [merge_merge, ← c1, ← c2]
  | @drop κ i1 i2 n l h hl =>
    rw [node_plain C n l h]
    have e : backwardDense l.coef l.offset = (Back.identity : Back κ κ α) := by
      have hc : l.coef = fun i k => if i = k then 1 else 0 := by
        funext i k; simp only [Lay.coef, hl, sub_zero, eq_comm]
      have ho : l.offset = fun _ => 0 := by funext k; simp only [Lay.offset, hl]
      rw [hc, ho]; rfl
    rw [e]
    refine node_ext ?_ ?_
    · exact node_identity C n
    · intro ν b
      simp only [merge_identity_left]
  | trans _ _ ih ih' => exact ih.trans ih'

end Crown

end Decomon
