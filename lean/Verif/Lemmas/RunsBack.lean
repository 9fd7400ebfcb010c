import Verif.Lemmas.RunsAffine
import Verif.Lemmas.Runs
import Verif.Props.Drift
import Verif.Model.RunsBack

/-! Lemmas about backward bounds computed with errors. -/

namespace Decomon

section
variable {X ι κ κ' ν α : Type} [Field α] [LinearOrder α] [IsStrictOrderedRing α]

theorem Back.Near.off [Fintype κ] {b b' : Back κ ν α} {y : κ → α} {z s : ν → α} {t r : α} (h : b.Near y z s) (ht : 0 ≤ t) (hr : ∑ i, |y i| ≤ r)
    (o : Back.Off t b b') : b'.Near y z (fun n => s n + t * (1 + r)) := by
  intro n
  have h1 := abs_le.1 (aff_off _ _ y _ _ t r ht hr (fun i => (o.weight i n).1) (o.bias n).1)
  have h2 := abs_le.1 (aff_off _ _ y _ _ t r ht hr (fun i => (o.weight i n).2) (o.bias n).2)
  constructor <;> linarith [(h n).1, (h n).2]

theorem Back.Bnd.off {b b' : Back κ ν α} {B : κ → ν → α} {t : α} (h : b.Bnd B) (o : Back.Off t b b') : b'.Bnd (fun i n => B i n + t) := by
  intro i n
  have h1 := abs_sub_abs_le_abs_sub (b'.wu i n) (b.wu i n)
  have h2 := abs_sub_abs_le_abs_sub (b'.wl i n) (b.wl i n)
  constructor <;> linarith [(h i n).1, (h i n).2, (o.weight i n).1, (o.weight i n).2]

theorem Lay.absWeight_eq [DecidableEq κ] (l : Lay α κ κ') : l.absWeight = l.absW := by
  cases l with
  | linear L kernel bias =>
    funext i k
    simp only [Lay.absWeight, Lay.absW, toeplitz]
    refine Finset.sum_congr rfl fun t _ => ?_
    cases L.src k t <;> simp
  | _ => rfl

theorem Lay.absWeight_nonneg [DecidableEq κ] (l : Lay α κ κ') (hl : l.WF) (i : κ) (k : κ') : 0 ≤ l.absWeight i k := by
  cases l with
  | dense kernel bias => exact abs_nonneg _
  | linear L kernel bias =>
    refine Finset.sum_nonneg fun t _ => ?_
    cases L.src k t with
    | none => exact le_rfl
    | some q => simp only; split <;> simp
  | relu gf gb => simp only [Lay.absWeight]; split <;> simp
  | batchNorm gamma beta mean sd =>
    simp only [Lay.absWeight]
    split
    · exact div_nonneg (abs_nonneg _) (hl k).le
    · exact le_rfl
  | reshape e => simp only [Lay.absWeight]; split <;> simp
  | skip => simp only [Lay.absWeight]; split <;> simp

theorem Lay.ownTol_nonneg {eps t : α} (he : 0 < eps) (ht : 0 ≤ t) (l : Lay α κ κ') (s : κ → α) (hs : ∀ k, 0 ≤ s k) (k : κ') : 0 ≤ l.ownTol eps t s k := by
  cases l <;> simp only [Lay.ownTol, le_refl]
  linarith [hs k]

/-- One backward layer: the error of its lines and the size of its weights. -/
theorem Lay.BackComputes.near [Fintype ι] [Fintype κ] [DecidableEq κ] {D : PertDomain X ι α} {m : Mode} {eps : α} (he : 0 < eps) {slope : Slope} {t : α}
    (ht : 0 ≤ t) {l : Lay α κ κ'} (hl : l.WF) {f : Full X ι κ α} {S : Set (ι → α)} (hD : D.Sound f.x S) {p : ι → α} (hp : p ∈ S) {y s : κ → α}
    (hs : ∀ k, 0 ≤ s k) (v : Near m f p y s) {r : α} (hr : ∑ i, |y i| ≤ r) {b : Back κ κ' α} (h : l.BackComputes D m eps slope t f b) :
    b.Near y (l.eval y) (fun k => l.ownTol eps t s k + t * (1 + r)) ∧ b.Bnd (fun i k => l.absWeight i k + t) := by
  rw [l.absWeight_eq]
  have zero : ∀ {b0 : Back κ κ' α}, b0.Holds y (l.eval y) → b0.Near y (l.eval y) (fun _ => 0) := fun h k => by simpa using h k
  have bnd := l.backward_bnd D m eps he slope hl f
  cases l with
  | dense kernel bias => exact ⟨(zero (holds_dense kernel bias y)).off ht hr h, bnd.off h⟩
  | linear L kernel bias => exact ⟨(zero (holds_conv L kernel bias y)).off ht hr h, bnd.off h⟩
  | batchNorm gamma beta mean sd => exact ⟨(zero (holds_batchNorm gamma beta mean sd y)).off ht hr h, bnd.off h⟩
  | reshape e => exact ⟨(zero (holds_reindex e y)).off ht hr h, bnd.off h⟩
  | skip => exact ⟨(zero (holds_identity y)).off ht hr h, bnd.off h⟩
  | relu gf gb =>
    obtain ⟨u, lo, u2, l2, h1, -, h3⟩ := h
    refine ⟨Back.Near.off (s := fun k => s k + t + eps / 4) ?_ ht hr h3, Back.Bnd.off ?_ h3⟩
    · intro k
      obtain ⟨c1, c2⟩ := near_tighten_const D m f S hD p hp y s v k
      have a1 := abs_le.1 (h1 k).1
      have a2 := abs_le.1 (h1 k).2
      have low := hullRelu_lower_all (u := u2 k) (l := l2 k) slope he (hl k).2.1 (hl k).2.2 (y k)
      have up := hullRelu_upper_near (u := u k) (l := lo k) slope he (hl k).2.1 (hl k).2.2 (add_nonneg (hs k) ht) (z := y k)
        (by linarith) (by linarith)
      simp only [Back.ofDiag, diagLike_sum, Lay.eval]
      exact ⟨le_trans (by linarith [hs k]) low, up⟩
    · intro i k
      obtain ⟨⟨a0, a1⟩, -⟩ := hullRelu_unit (eps := eps) (u k) (lo k) slope he (hl k).2.1 (hl k).2.2
      obtain ⟨-, b0, b1⟩ := hullRelu_unit (eps := eps) (u2 k) (l2 k) slope he (hl k).2.1 (hl k).2.2
      simp only [Back.ofDiag, diagLike, Lay.absW]
      split
      · rw [abs_of_nonneg a0, abs_of_nonneg b0]; exact ⟨a1, b1⟩
      · simp

theorem Net.eval_size_id (n : Net α ι κ) (hc : n.Chain) (hn : n.WF) (σ : α) (hσ : 0 < σ) (hsd : n.SdAbove σ) (p A : ι → α) (h : ∀ i, |p i| ≤ A i) (k : κ) :
    |n.eval p k| ≤ n.size id σ A k := by
  induction n with
  | input => exact h k
  | layer n l ih => exact l.eval_size hn.2 σ hσ hsd.2 _ _ (fun k => ih hc hn.1 hsd.1 k) k
  | merge op n0 n1 _ _ => exact absurd hc (by simp [Net.Chain])

theorem Net.crownSlack_nonneg [Fintype ι] (uf : Bool) {t eps r σ : α} (ht : 0 ≤ t) (he : 0 < eps) (hr : 0 ≤ r) {A : ι → α} (n : Net α ι κ)
    (hn : n.WF) (hA : ∀ {κ : Type} (n : Net α ι κ) (k : κ), 0 ≤ n.size id σ A k) :
    (∀ k, 0 ≤ (n.crownSlack uf t eps r σ A).1 k) ∧ ∀ B : κ → α, (∀ k, 0 ≤ B k) → 0 ≤ (n.crownSlack uf t eps r σ A).2 B := by
  have hr1 : 0 ≤ t * (1 + r) := mul_nonneg ht (by linarith)
  induction n with
  | input => exact ⟨fun _ => hr1, fun _ _ => by simp only [Net.crownSlack]; linarith⟩
  | layer n l ih =>
    obtain ⟨i1, i2⟩ := ih hn.1
    have hch : ∀ k, 0 ≤ (if uf then n.slackTol ⟨fun _ _ => t, fun _ => t⟩ eps r k else (n.crownSlack uf t eps r σ A).1 k + t * (1 + r)) := fun k => by
      split
      · exact n.slackTol_nonneg ⟨fun _ _ => ht, fun _ => ht⟩ he hr hn.1 k
      · linarith [i1 k]
    have hcost : 0 ≤ t * (1 + ∑ k, n.size id σ A k) := mul_nonneg ht (add_nonneg zero_le_one (Finset.sum_nonneg fun k _ => hA n k))
    have hown := fun k => add_nonneg (l.ownTol_nonneg he ht _ hch k) hcost
    constructor
    · intro k
      exact add_nonneg (hown k) (i2 _ fun i => add_nonneg (l.absWeight_nonneg hn.2 i k) ht)
    · intro B hB
      exact add_nonneg (add_nonneg (Finset.sum_nonneg fun k _ => mul_nonneg (hB k) (hown k)) hcost)
        (i2 _ fun i => add_nonneg (Finset.sum_nonneg fun k _ => mul_nonneg (add_nonneg (l.absWeight_nonneg hn.2 i k) ht) (hB k)) ht)
  | merge op n0 n1 _ _ => exact ⟨fun _ => le_rfl, fun _ _ => le_rfl⟩

/-- Both entries of `crown_` on a chain. -/
theorem CrownCfg.Computes.near [iF : Fintype ι] [DecidableEq ι] (c : CrownCfg X ι α) (he : 0 < c.eps) {t : α} (ht : 0 ≤ t) (S : Set (ι → α))
    (hD : c.D.Sound c.inp.x S) (hst : c.m = .ibp → c.D.Sound (c.stack c.inp.lc c.inp.uc) S) (p : ι → α) (hp : p ∈ S)
    (hi : Valid c.m false c.inp p p) {r σ : α} (hr : ∑ i, |p i| ≤ r) (hσ : 0 < σ) {A : ι → α} (hA : ∀ i, |p i| ≤ A i) {κ : Type} (n : Net α ι κ)
    (hc : n.Chain) (hn : n.WF) (hsd : n.SdAbove σ) :
    (∀ b, (c.Computes t n).1 b → b.Near p (n.eval p) (n.crownSlack c.useForward t c.eps r σ A).1) ∧
    ∀ [Fintype κ], ∀ (ν : Type) (b : Back κ ν α) (z sb : ν → α) (B : κ → ν → α), (∀ k j, 0 ≤ B k j) → b.Bnd B → b.Near (n.eval p) z sb →
      ∀ b', (c.Computes t n).2 ν b b' → b'.Near p z (fun j => sb j + (n.crownSlack c.useForward t c.eps r σ A).2 fun k => B k j) := by
  have r0 : 0 ≤ r := (Finset.sum_nonneg fun i _ => abs_nonneg _).trans hr
  have hsz : ∀ {κ : Type} (n : Net α ι κ) (k : κ), 0 ≤ n.size id σ A k := fun n k =>
    n.size_nonneg id σ hσ A (fun i => (abs_nonneg _).trans (hA i)) k
  induction n with
  | input =>
    constructor
    · intro b h
      have := fuse_holds c.m c.inp p hi _ _ (holds_identity p)
      have h0 : (fuse c.m c.inp Back.identity).Near p p (fun _ => 0) := fun k => by simpa using this k
      intro k
      simpa [Net.crownSlack, Net.eval] using h0.off ht hr h k
    · intro inst ν b z sb B _ _ h b' ⟨b1, h1, h2⟩
      obtain rfl : iF = inst := Subsingleton.elim _ _
      have e1 : (mergeWithPrevious Back.identity b).Near p z sb := by
        rw [near_iff_widen] at h ⊢
        rw [← merge_widen]
        exact holds_merge _ _ p p z (holds_identity p) h
      have e2 := e1.off ht hr h1
      have e3 : (fuse c.m c.inp b1).Near p z (fun j => sb j + t * (1 + r)) := by
        rw [near_iff_widen] at e2 ⊢
        rw [← fuse_widen]
        exact fuse_holds c.m c.inp p hi _ _ e2
      refine (e3.off ht hr h2).mono fun j => le_of_eq ?_
      simp only [Net.crownSlack]
      ring
  | merge op n0 n1 _ _ => exact absurd hc (by simp [Net.Chain])
  | @layer κ₁ κ₂ _ _ i3 n l ih =>
    obtain ⟨hfirst, hnext⟩ := ih hc hn.1 hsd.1
    obtain ⟨s1, s2⟩ := n.crownSlack_nonneg c.useForward ht he r0 hn.1 hsz
    set child : κ₁ → α := fun k => if c.useForward then n.slackTol ⟨fun _ _ => t, fun _ => t⟩ c.eps r k else
      (n.crownSlack c.useForward t c.eps r σ A).1 k + t * (1 + r) with hchild
    have child0 : ∀ k, 0 ≤ child k := fun k => by
      simp only [hchild]
      split
      · exact n.slackTol_nonneg ⟨fun _ _ => ht, fun _ => ht⟩ he r0 hn.1 k
      · linarith [s1 k, mul_nonneg ht (show 0 ≤ 1 + r by linarith)]
    have hsum : ∑ k, |n.eval p k| ≤ ∑ k, n.size id σ A k := Finset.sum_le_sum fun k _ => n.eval_size_id hc hn.1 σ hσ hsd.1 p A hA k
    have hf : ∀ f, (if c.useForward then n.Computes c.D c.m c.eps c.slope ⟨fun _ _ => t, fun _ => t⟩ c.inp f
        else ∃ b0, (c.Computes t n).1 b0 ∧ (convert2BackwardMode c.D c.stack c.m c.inp b0).Off c.m (fun _ => t) f) →
        c.D.Sound f.x S ∧ Near c.m f p (n.eval p) child := by
      intro f h
      cases hu : c.useForward with
      | true =>
        rw [hu, if_pos rfl] at h
        refine ⟨by rw [h.x]; exact hD, ?_⟩
        have := h.near he ⟨fun _ _ => ht, fun _ => ht⟩ hD hp hr hi hn.1 (n.noMultiply_of_chain hc)
        simpa only [hchild, hu, if_true] using this
      | false =>
        rw [hu, if_neg Bool.false_ne_true] at h
        obtain ⟨b0, h0, h1⟩ := h
        constructor
        · rw [h1.x]
          simp only [convert2BackwardMode]; split <;> [exact hD; (rename_i hm; simpa [hm] using hD)]
        · have e := convert2BackwardMode_near c.D c.stack c.m c.inp S (fun _ => hD) hst p hp b0 _ _ (hfirst b0 h0)
          have := e.off hr (fun _ => ht) h1
          simpa only [hchild, hu, if_neg Bool.false_ne_true] using this
    have hown := fun k => add_nonneg (l.ownTol_nonneg he ht child child0 k)
      (mul_nonneg ht (add_nonneg zero_le_one (Finset.sum_nonneg fun k (_ : k ∈ Finset.univ) => hsz n k)))
    constructor
    · rintro b ⟨bn, ⟨f, h1, h2⟩, h3⟩
      obtain ⟨f1, f2⟩ := hf f h1
      obtain ⟨a1, a2⟩ := h2.near he ht hn.2 f1 hp child0 f2 hsum
      exact hnext κ₂ bn _ _ _ (fun i k => add_nonneg (l.absWeight_nonneg hn.2 i k) ht) a2 a1 b h3
    · rintro inst ν b z sb B hB0 hB h b' ⟨bn, bm, ⟨f, h1, h2⟩, h3, h4⟩
      obtain rfl : i3 = inst := Subsingleton.elim _ _
      obtain ⟨f1, f2⟩ := hf f h1
      obtain ⟨a1, a2⟩ := h2.near he ht hn.2 f1 hp child0 f2 hsum
      have m1 := (near_merge bn b (n.eval p) (l.eval (n.eval p)) z _ sb B hown hB a1 h).off ht hsum h3
      have m2 := (merge_bnd bn b _ B a2 hB).off h3
      have := hnext ν bm z _ _ (fun i j => add_nonneg (Finset.sum_nonneg fun k _ =>
        mul_nonneg (add_nonneg (l.absWeight_nonneg hn.2 i k) ht) (hB0 k j)) ht) m2 m1 b' h4
      refine this.mono fun j => le_of_eq ?_
      simp only [Net.crownSlack, ← hchild]
      ring

end

end Decomon
