import Verif.Lemmas.Backward

/-! Helper lemmas for whole networks. -/

namespace Decomon

section
variable {X ι κ κ' α : Type} [Fintype ι] [Field α] [LinearOrder α] [IsStrictOrderedRing α]

/-- The ReLU inputs met by a layer avoid the sliver of the ReLU hull. -/
def Lay.SliverOK (D : PertDomain X ι α) (m : Mode) (eps : α) : Lay α κ κ' → Full X ι κ α → Prop
  | .dense _ _, _ => True
  | @Lay.linear _ _ _ _ _ _ _ _ _, _ => True
  | .relu _ _, f => SliverFree D m eps f
  | .batchNorm _ _ _ _, _ => True
  | .reshape _, _ => True
  | .skip, _ => True

/-- The ReLU inputs met by a merge layer avoid the sliver of the ReLU hull. -/
def MergeOp.SliverOK (D : PertDomain X ι α) (m : Mode) (eps : α) (op : MergeOp) (f0 f1 : Full X ι κ α) : Prop :=
  match op with
  | .maximum => FoldSliverFree D m eps f0 [f1]
  | .minimum => FoldSliverFree D m eps (minusT D m f0) [minusT D m f1]
  | _ => True

/-- No neuron of the forward pass meets the sliver of the ReLU hull. -/
def Net.SliverOK (D : PertDomain X ι α) (m : Mode) (eps : α) (slope : Slope) (inp : Full X ι ι α) : {κ : Type} → Net α ι κ → Prop
  | _, .input => True
  | _, @Net.layer _ _ _ _ _ _ _ n l => n.SliverOK D m eps slope inp ∧ l.SliverOK D m eps (n.forward D m eps slope inp)
  | _, .merge op n0 n1 => n0.SliverOK D m eps slope inp ∧ n1.SliverOK D m eps slope inp ∧
      op.SliverOK D m eps (n0.forward D m eps slope inp) (n1.forward D m eps slope inp)

theorem foldSliverFree_ibp (D : PertDomain X ι α) (eps : α) : ∀ (l : List (Full X ι κ α)) (a : Full X ι κ α),
    FoldSliverFree D .ibp eps a l := by
  intro l
  induction l with
  | nil => intro a; trivial
  | cons b t ih => intro a; exact ⟨by simp [SliverFree, getAffine], ih _⟩

theorem Net.sliverOK_ibp (D : PertDomain X ι α) (eps : α) (slope : Slope) (inp : Full X ι ι α) {κ : Type} (n : Net α ι κ) :
    n.SliverOK D .ibp eps slope inp := by
  induction n with
  | input => trivial
  | layer n l ih =>
    refine ⟨ih, ?_⟩
    cases l <;> simp [Lay.SliverOK, SliverFree, getAffine]
  | merge op n0 n1 ih0 ih1 =>
    refine ⟨ih0, ih1, ?_⟩
    cases op <;> first | exact trivial | exact foldSliverFree_ibp D eps _ _

omit [Fintype ι] [IsStrictOrderedRing α] in
theorem Lay.forward_x [Fintype κ] (D : PertDomain X ι α) (m : Mode) (eps : α) (slope : Slope) (l : Lay α κ κ') (f : Full X ι κ α) :
    (l.forward D m eps slope f).x = f.x := by
  cases l <;> simp [Lay.forward, denseT, linearLayerT, reluT, batchNormT, reindexT]

omit [Fintype ι] [IsStrictOrderedRing α] in
theorem MergeOp.forward_x (D : PertDomain X ι α) (m : Mode) (eps : α) (op : MergeOp) (f0 f1 : Full X ι κ α) :
    (op.forward D m eps f0 f1).x = f0.x ∨ (op.forward D m eps f0 f1).x = f1.x := by
  cases op
  · left; simp [MergeOp.forward, addLayerT]
  · left; simp [MergeOp.forward, averageLayerT]
  · left; simp [MergeOp.forward, subtractT, addT]
  · right; simp [MergeOp.forward, maximumLayerT, maximumT, addT, reluT, subtractT]
  · right; simp [MergeOp.forward, minimumLayerT, maximumLayerT, minusT, maximumT, addT, reluT, subtractT]
  · left; simp [MergeOp.forward, multiplyLayerT, multiplyT]

omit [Fintype ι] [IsStrictOrderedRing α] in
theorem Net.forward_x (D : PertDomain X ι α) (m : Mode) (eps : α) (slope : Slope) (inp : Full X ι ι α) {κ : Type} (n : Net α ι κ) :
    (n.forward D m eps slope inp).x = inp.x := by
  induction n with
  | input => rfl
  | layer n l ih => simp only [Net.forward, Lay.forward_x, ih]
  | merge op n0 n1 ih0 ih1 =>
    rcases MergeOp.forward_x D m eps op (n0.forward D m eps slope inp) (n1.forward D m eps slope inp) with h | h <;>
      simp only [Net.forward, h, ih0, ih1]

theorem Lay.forward_valid [Fintype κ] (D : PertDomain X ι α) (m : Mode) (eps : α) (he : 0 < eps) (slope : Slope)
    (l : Lay α κ κ') (hl : l.WF) (f : Full X ι κ α) (S : Set (ι → α)) (hD : D.Sound f.x S)
    (hs : l.SliverOK D m eps f) (p : ι → α) (hp : p ∈ S) (y : κ → α) (v : Valid m false f p y) :
    Valid m false (l.forward D m eps slope f) p (l.eval y) := by
  cases l with
  | dense kernel bias => exact valid_dense D m false kernel bias f S hD p hp y v
  | linear L kernel bias => exact C11_linear_valid D m false L kernel bias f S hD p hp y v
  | relu gf gb => exact C06_relu_valid_partial D m false eps he slope gf (fun k => (hl k).1) f S hD hs p hp y v
  | batchNorm gamma beta mean sd => exact valid_batchNorm D m gamma beta mean sd hl f S hD p hp y v
  | reshape e => exact valid_reindex D m false e f S hD p hp y v
  | skip => exact v

theorem MergeOp.forward_valid (D : PertDomain X ι α) (m : Mode) (eps : α) (he : 0 < eps) (op : MergeOp)
    (f0 f1 : Full X ι κ α) (S : Set (ι → α)) (h0 : D.Sound f0.x S) (h1 : D.Sound f1.x S)
    (hs : op.SliverOK D m eps f0 f1) (p : ι → α) (hp : p ∈ S) (y0 y1 : κ → α) (v0 : Valid m false f0 p y0)
    (v1 : Valid m false f1 p y1) :
    Valid m false (op.forward D m eps f0 f1) p (fun k => op.eval (y0 k) (y1 k)) := by
  have h : List.Forall₂ (fun f y => D.Sound f.x S ∧ Valid m false f p y) [f1] [y1] := .cons ⟨h1, v1⟩ .nil
  cases op with
  | add => simpa [MergeOp.forward, MergeOp.eval] using C14_add_valid D m f0 [f1] S p hp y0 [y1] h0 v0 h
  | average =>
    have := C14_average_valid D m f0 [f1] S p hp y0 [y1] h0 v0 h
    have e : ((([y0, y1] : List (κ → α)).length : ℕ) : α) = 2 := by norm_num
    rw [e] at this
    simpa [MergeOp.forward, MergeOp.eval] using this
  | subtract => exact C07_subtract_valid D m false f0 f1 S h0 h1 p hp y0 y1 v0 v1
  | maximum => simpa [MergeOp.forward, MergeOp.eval] using C14_maximum_valid_partial D m eps he S p hp f0 [f1] y0 [y1] h0 v0 h hs
  | minimum => simpa [MergeOp.forward, MergeOp.eval] using C14_minimum_valid_partial D m eps he S p hp f0 [f1] y0 [y1] h0 v0 h hs
  | multiply => simpa [MergeOp.forward, MergeOp.eval] using C14_multiply_valid D m S p hp f0 [f1] y0 [y1] h0 v0 h

theorem Net.forward_valid (D : PertDomain X ι α) (m : Mode) (eps : α) (he : 0 < eps) (slope : Slope) (inp : Full X ι ι α)
    (S : Set (ι → α)) (hD : D.Sound inp.x S) (p : ι → α) (hp : p ∈ S) (hi : Valid m false inp p p) {κ : Type} (n : Net α ι κ)
    (hn : n.WF) (hs : n.SliverOK D m eps slope inp) : Valid m false (n.forward D m eps slope inp) p (n.eval p) := by
  induction n with
  | input => exact hi
  | layer n l ih =>
    exact l.forward_valid D m eps he slope hn.2 _ S (by rw [Net.forward_x]; exact hD) hs.2 p hp _ (ih hn.1 hs.1)
  | merge op n0 n1 ih0 ih1 =>
    exact op.forward_valid D m eps he _ _ S (by rw [Net.forward_x]; exact hD) (by rw [Net.forward_x]; exact hD) hs.2.2 p hp _ _
      (ih0 hn.1 hs.1) (ih1 hn.2 hs.2.1)

/-! ### Backward -/

/-- The ReLU inputs met by a backward layer avoid the sliver (in every mode: the backward pass always uses the hull). -/
def Lay.BackSliverOK (D : PertDomain X ι α) (m : Mode) (eps : α) : Lay α κ κ' → Full X ι κ α → Prop
  | .dense _ _, _ => True
  | @Lay.linear _ _ _ _ _ _ _ _ _, _ => True
  | .relu _ _, f => ∀ k, ¬ ((f.tighten D m true true).lc k < 0 ∧ 0 < (f.tighten D m true true).uc k ∧
      (f.tighten D m true true).uc k - (f.tighten D m true true).lc k < eps)
  | .batchNorm _ _ _ _, _ => True
  | .reshape _, _ => True
  | .skip, _ => True

variable [DecidableEq ι]

/-- No neuron of the backward pass meets the sliver of the ReLU hull, given the intermediate bounds it uses. -/
def CrownCfg.SliverOK (c : CrownCfg X ι α) : {κ : Type} → Net α ι κ → Prop
  | _, .input => True
  | _, @Net.layer _ _ _ _ _ _ _ n l => c.SliverOK n ∧
      (∀ f, c.childInput n (c.node n) = .ok f → l.BackSliverOK c.D c.m c.eps f) ∧
      (c.useForward = true → n.SliverOK c.D c.m c.eps c.slope c.inp)
  | _, .merge _ _ _ => True

theorem Lay.backward_holds [Fintype κ] [DecidableEq κ] (D : PertDomain X ι α) (m : Mode) (eps : α) (he : 0 < eps) (slope : Slope)
    (l : Lay α κ κ') (hl : l.WF) (f : Full X ι κ α) (S : Set (ι → α)) (hD : D.Sound f.x S)
    (hs : l.BackSliverOK D m eps f) (p : ι → α) (hp : p ∈ S) (y : κ → α) (v : Valid m false f p y) :
    (l.backward D m eps slope f).Holds y (l.eval y) := by
  cases l with
  | dense kernel bias => exact holds_dense kernel bias y
  | linear L kernel bias => exact holds_conv L kernel bias y
  | relu gf gb =>
    exact holds_relu D m eps he slope gb (fun k => (hl k).2) f y (tighten_const D m false f S hD p hp y v) hs
  | batchNorm gamma beta mean sd => exact holds_batchNorm gamma beta mean sd y
  | reshape e => exact holds_reindex e y
  | skip => exact holds_identity y

theorem fuse_holds {ν : Type} (m : Mode) (inp : Full X ι ι α) (p : ι → α) (hi : Valid m false inp p p) (b : Back ι ν α)
    (t : ν → α) (h : b.Holds p t) : (fuse m inp b).Holds p t := by
  unfold fuse
  split
  · rename_i ha
    exact holds_merge _ _ p p t (fun k => hi.aff ha k) h
  · exact h

theorem fuse_merge_holds {ν : Type} (m : Mode) (inp : Full X ι ι α) (p : ι → α) (hi : Valid m false inp p p) (b : Back ι ν α)
    (t : ν → α) (h : b.Holds p t) : (fuse m inp (mergeWithPrevious Back.identity b)).Holds p t :=
  fuse_holds m inp p hi _ _ (holds_merge _ _ p p t (holds_identity p) h)

theorem convert2BackwardMode_valid {ν : Type} (D : PertDomain X ι α) (stack : (ι → α) → (ι → α) → X) (m : Mode)
    (inp : Full X ι ι α) (S : Set (ι → α)) (hD : m ≠ .ibp → D.Sound inp.x S)
    (hst : m = .ibp → D.Sound (stack inp.lc inp.uc) S) (p : ι → α) (hp : p ∈ S) (b : Back ι ν α) (t : ν → α)
    (h : b.Holds p t) : Valid m false (convert2BackwardMode D stack m inp b) p t := by
  have hx : D.Sound (if m = .ibp then stack inp.lc inp.uc else inp.x) S := by
    split
    · rename_i hm; exact hst hm
    · rename_i hm; exact hD hm
  refine ⟨fun hi k => ?_, fun ha k => ?_, by simp⟩
  · simp only [convert2BackwardMode, hi, if_true]
    exact ⟨(hx p hp _ _).1.trans (h k).1, (h k).2.trans (hx p hp _ _).2⟩
  · simp only [convert2BackwardMode, ha, if_true]
    exact h k

omit [Fintype ι] [Field α] [IsStrictOrderedRing α] [LinearOrder α] in
theorem holds_inst [Field α] [LinearOrder α] {κ κ' : Type} (i1 i2 : Fintype κ) (b : Back κ κ' α) (y : κ → α) (t : κ' → α)
    (h : @Back.Holds κ κ' α i1 _ _ b y t) : @Back.Holds κ κ' α i2 _ _ b y t := by
  rw [Subsingleton.elim i2 i1]; exact h

/-- Both entries of `crown_` on a chain succeed with sound bounds. -/
theorem CrownCfg.node_holds (c : CrownCfg X ι α) (he : 0 < c.eps) (S : Set (ι → α)) (hD : c.D.Sound c.inp.x S)
    (hst : c.m = .ibp → c.D.Sound (c.stack c.inp.lc c.inp.uc) S) (p : ι → α) (hp : p ∈ S)
    (hi : Valid c.m false c.inp p p) {κ : Type} (n : Net α ι κ) (hc : n.Chain) (hn : n.WF) (hs : c.SliverOK n) :
    (∃ b, (c.node n).first = .ok b ∧ b.Holds p (n.eval p)) ∧
    ∀ [Fintype κ], ∀ (ν : Type) (b : Back κ ν α) (t : ν → α), b.Holds (n.eval p) t →
      ∃ b', (c.node n).next ν b = .ok b' ∧ b'.Holds p t := by
  induction n with
  | input =>
    have key := fun (ν : Type) (b : Back ι ν α) t h => fuse_merge_holds c.m c.inp p hi b t h
    refine ⟨⟨_, rfl, fuse_holds c.m c.inp p hi _ _ (holds_identity p)⟩, ?_⟩
    intro inst ν b t h
    exact ⟨_, rfl, key ν b t (holds_inst _ _ _ _ _ h)⟩
  | merge op n0 n1 _ _ => exact absurd hc (by simp [Net.Chain])
  | @layer κ₁ κ₂ _ _ _ n l ih =>
    obtain ⟨⟨b0, hb0, hh0⟩, hnext⟩ := ih hc hn.1 hs.1
    have hchild : ∃ f, c.childInput n (c.node n) = .ok f ∧ c.D.Sound f.x S ∧ Valid c.m false f p (n.eval p) := by
      unfold CrownCfg.childInput
      cases hu : c.useForward with
      | true =>
        refine ⟨_, if_pos rfl, by rw [Net.forward_x]; exact hD, ?_⟩
        exact Net.forward_valid c.D c.m c.eps he c.slope c.inp S hD p hp hi n hn.1 (hs.2.2 hu)
      | false =>
        refine ⟨convert2BackwardMode c.D c.stack c.m c.inp b0, by simp [hb0, Except.map], ?_, ?_⟩
        · simp only [convert2BackwardMode]; split <;> [exact hD; (rename_i hm; simpa [hm] using hD)]
        · exact convert2BackwardMode_valid c.D c.stack c.m c.inp S (fun _ => hD) hst p hp b0 _ hh0
    obtain ⟨f, hf, hfx, hfv⟩ := hchild
    have hl := l.backward_holds c.D c.m c.eps he c.slope hn.2 f S hfx (hs.2.1 f hf) p hp _ hfv
    constructor
    · obtain ⟨b', h1, h2⟩ := hnext κ₂ _ _ hl
      refine ⟨b', ?_, h2⟩
      simp only [CrownCfg.node, hf, Except.map, bind, Except.bind]
      exact h1
    · have key := fun (ν : Type) (b : Back κ₂ ν α) t h =>
        hnext ν _ t (holds_merge _ b (n.eval p) (l.eval (n.eval p)) t hl h)
      intro inst ν b t h
      obtain ⟨b', h1, h2⟩ := key ν b t (holds_inst _ _ _ _ _ h)
      refine ⟨b', ?_, h2⟩
      simp only [CrownCfg.node, hf, Except.map, bind, Except.bind]
      exact h1

end

end Decomon
