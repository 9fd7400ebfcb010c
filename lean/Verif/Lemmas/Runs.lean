import Verif.Model.Runs
import Verif.Lemmas.Drift
import Verif.Lemmas.Network

/-! Lemmas for C123: one layer, applied to bounds from which its inputs stick out a little. -/

namespace Decomon

section
variable {ι κ κ' α : Type} [Field α] [LinearOrder α] [IsStrictOrderedRing α]

theorem Lay.map_id (l : Lay α κ κ') : l.map id = l := by cases l <;> rfl

theorem ibpOnly_valid (up lo y : κ → α) (h : ∀ k, lo k ≤ y k ∧ y k ≤ up k) : Valid .ibp false (ibpOnly up lo) Empty.elim y :=
  ⟨fun _ k => h k, fun h => by simp [getAffine] at h, fun h => by simp at h⟩

theorem emptyDomain_sound : (emptyDomain α).Sound () (Set.univ : Set (Empty → α)) := by
  intro p _ w b
  simp [emptyDomain, affEval]

theorem bounded_only {up lo A : κ → α} (hu : ∀ k, |up k| ≤ A k) (hl : ∀ k, |lo k| ≤ A k) : Bounded (ibpOnly up lo) A := fun k => ⟨hu k, hl k⟩

/-- The enlarged bounds: those of `ibpOnly` and the point. -/
theorem within_stretch {up lo w s : κ → α} (hs : ∀ k, 0 ≤ s k) (h : ∀ k, lo k - s k ≤ w k ∧ w k ≤ up k + s k) :
    Within (ibpOnly up lo) (ibpOnly (fun k => max (up k) (w k)) (fun k => min (lo k) (w k))) s := by
  intro k
  simp only [ibpOnly]
  have h1 := (h k).1
  have h2 := (h k).2
  have h3 := hs k
  constructor
  · rcases le_total (up k) (w k) with e | e
    · rw [max_eq_right e, abs_of_nonpos (by linarith)]; linarith
    · rw [max_eq_left e, sub_self, abs_zero]; exact h3
  · rcases le_total (lo k) (w k) with e | e
    · rw [min_eq_left e, sub_self, abs_zero]; exact h3
    · rw [min_eq_right e, abs_of_nonneg (by linarith)]; linarith

theorem Lay.sliverOK_ibp {X : Type} [Fintype κ] (D : PertDomain X ι α) (eps : α) (l : Lay α κ κ') (f : Full X ι κ α) : l.SliverOK D .ibp eps f := by
  cases l <;> simp [Lay.SliverOK, SliverFree, getAffine]

/-- One layer: the inputs are at most `s` outside the bounds. -/
theorem Lay.sticks_out [Fintype κ] (eps : α) (he : 0 < eps) (sl : Slope) (l : Lay α κ κ') (hl : l.WF) (σ : α) (hσ : 0 < σ) (hsd : l.SdAbove σ)
    (up lo w A s : κ → α) (hu : ∀ k, |up k| ≤ A k) (hlo : ∀ k, |lo k| ≤ A k) (hs : ∀ k, 0 ≤ s k)
    (h : ∀ k, lo k - s k ≤ w k ∧ w k ≤ up k + s k) (k : κ') :
    (l.forward (emptyDomain α) .ibp eps sl (ibpOnly up lo)).lc k - l.drift id 0 σ A s k ≤ l.eval w k ∧
      l.eval w k ≤ (l.forward (emptyDomain α) .ibp eps sl (ibpOnly up lo)).uc k + l.drift id 0 σ A s k := by
  have hv := (l.forward_valid (emptyDomain α) .ibp eps he sl hl _ Set.univ emptyDomain_sound (l.sliverOK_ibp _ _ _) Empty.elim (Set.mem_univ _) w
    (ibpOnly_valid (fun k => max (up k) (w k)) (fun k => min (lo k) (w k)) w fun k => ⟨min_le_right _ _, le_max_right _ _⟩)).const rfl k
  have hd := l.drift_bounds (emptyDomain α) (emptyDomain α) eps eps sl sl id id 0 (by simp) σ hσ (by rwa [Lay.map_id]) (by rwa [Lay.map_id]) _ _ A s
    (bounded_only hu hlo) (within_stretch hs h) k
  rw [Lay.map_id, abs_le, abs_le] at hd
  constructor <;> linarith [hv.1, hv.2, hd.1.1, hd.1.2, hd.2.1, hd.2.2]

/-- One layer: the size of its outputs. -/
theorem Lay.eval_size [Fintype κ] (l : Lay α κ κ') (hl : l.WF) (σ : α) (hσ : 0 < σ) (hsd : l.SdAbove σ) (w A : κ → α) (h : ∀ k, |w k| ≤ A k)
    (k : κ') : |l.eval w k| ≤ l.size id σ A k := by
  have hv := (l.forward_valid (emptyDomain α) .ibp 1 one_pos .vSlope hl _ Set.univ emptyDomain_sound (l.sliverOK_ibp _ _ _) Empty.elim (Set.mem_univ _) w
    (ibpOnly_valid w w w fun k => ⟨le_rfl, le_rfl⟩)).const rfl k
  have hb := l.size_bounds (emptyDomain α) 1 .vSlope id σ hσ (by rwa [Lay.map_id]) _ A (bounded_only h h) k
  rw [Lay.map_id, abs_le, abs_le] at hb
  rw [abs_le]
  constructor <;> linarith [hv.1, hv.2, hb.1.2, hb.2.1]

theorem MergeOp.sliverOK_ibp {X : Type} [Fintype ι] (D : PertDomain X ι α) (eps : α) (op : MergeOp) (f0 f1 : Full X ι κ α) : op.SliverOK D .ibp eps f0 f1 := by
  cases op <;> first | exact trivial | exact foldSliverFree_ibp D eps _ _

theorem MergeOp.sticks_out (eps : α) (he : 0 < eps) (op : MergeOp) (up0 lo0 w0 s0 up1 lo1 w1 s1 : κ → α) (k : κ) (a b : α)
    (h0u : |up0 k| ≤ a) (h0l : |lo0 k| ≤ a) (h1u : |up1 k| ≤ b) (h1l : |lo1 k| ≤ b) (hs0 : ∀ k, 0 ≤ s0 k) (hs1 : ∀ k, 0 ≤ s1 k)
    (h0 : ∀ k, lo0 k - s0 k ≤ w0 k ∧ w0 k ≤ up0 k + s0 k) (h1 : ∀ k, lo1 k - s1 k ≤ w1 k ∧ w1 k ≤ up1 k + s1 k) :
    (op.forward (emptyDomain α) .ibp eps (ibpOnly up0 lo0) (ibpOnly up1 lo1)).lc k - op.drift a b (s0 k) (s1 k) ≤ op.eval (w0 k) (w1 k) ∧
      op.eval (w0 k) (w1 k) ≤ (op.forward (emptyDomain α) .ibp eps (ibpOnly up0 lo0) (ibpOnly up1 lo1)).uc k + op.drift a b (s0 k) (s1 k) := by
  have hv := (op.forward_valid (emptyDomain α) .ibp eps he _ _ Set.univ emptyDomain_sound emptyDomain_sound (op.sliverOK_ibp _ _ _ _) Empty.elim
    (Set.mem_univ _) w0 w1
    (ibpOnly_valid (fun k => max (up0 k) (w0 k)) (fun k => min (lo0 k) (w0 k)) w0 fun k => ⟨min_le_right _ _, le_max_right _ _⟩)
    (ibpOnly_valid (fun k => max (up1 k) (w1 k)) (fun k => min (lo1 k) (w1 k)) w1 fun k => ⟨min_le_right _ _, le_max_right _ _⟩)).const rfl k
  have hd := op.drift_bounds (emptyDomain α) (emptyDomain α) eps eps (ibpOnly up0 lo0) (ibpOnly up1 lo1) _ _ k a b (s0 k) (s1 k) ⟨h0u, h0l⟩ ⟨h1u, h1l⟩
    (within_stretch hs0 h0 k) (within_stretch hs1 h1 k)
  rw [abs_le, abs_le] at hd
  constructor <;> linarith [hv.1, hv.2, hd.1.1, hd.1.2, hd.2.1, hd.2.2]

theorem MergeOp.eval_size (op : MergeOp) (w0 w1 a b : α) (h0 : |w0| ≤ a) (h1 : |w1| ≤ b) : |op.eval w0 w1| ≤ op.size a b := by
  have hv := (op.forward_valid (emptyDomain α) .ibp 1 one_pos _ _ Set.univ emptyDomain_sound emptyDomain_sound (op.sliverOK_ibp _ _ _ _) Empty.elim
    (Set.mem_univ _) _ _ (ibpOnly_valid (fun _ : Unit => w0) (fun _ => w0) (fun _ => w0) fun k => ⟨le_rfl, le_rfl⟩)
    (ibpOnly_valid (fun _ => w1) (fun _ => w1) (fun _ => w1) fun k => ⟨le_rfl, le_rfl⟩)).const rfl ()
  have hb := op.size_bounds (emptyDomain α) 1 (ibpOnly (fun _ : Unit => w0) (fun _ => w0)) (ibpOnly (fun _ => w1) (fun _ => w1)) () a b ⟨h0, h0⟩ ⟨h1, h1⟩
  rw [abs_le, abs_le] at hb
  rw [abs_le]
  constructor <;> linarith [hv.1, hv.2, hb.1.2, hb.2.1]

/-- In ibp mode a layer reads the constants only. -/
theorem Lay.forward_only {X : Type} [Fintype κ] (D : PertDomain X ι α) (eps : α) (sl : Slope) (l : Lay α κ κ') (f : Full X ι κ α) :
    (l.forward D .ibp eps sl f).uc = (l.forward (emptyDomain α) .ibp eps sl (ibpOnly f.uc f.lc)).uc ∧
      (l.forward D .ibp eps sl f).lc = (l.forward (emptyDomain α) .ibp eps sl (ibpOnly f.uc f.lc)).lc := by
  cases l <;> exact ⟨rfl, rfl⟩

theorem MergeOp.forward_only {X : Type} (D : PertDomain X ι α) (eps : α) (op : MergeOp) (f0 f1 : Full X ι κ α) :
    (op.forward D .ibp eps f0 f1).uc = (op.forward (emptyDomain α) .ibp eps (ibpOnly f0.uc f0.lc) (ibpOnly f1.uc f1.lc)).uc ∧
      (op.forward D .ibp eps f0 f1).lc = (op.forward (emptyDomain α) .ibp eps (ibpOnly f0.uc f0.lc) (ibpOnly f1.uc f1.lc)).lc := by
  cases op <;> exact ⟨rfl, rfl⟩

end

end Decomon
