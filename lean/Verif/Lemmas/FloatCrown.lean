import Verif.Model.FloatCrown
import Verif.Lemmas.FloatBack
import Verif.Props.FloatMode

/-! Lemmas about the methods `crown-forward-*` in rounded arithmetic. -/

namespace Decomon

section
variable {ι κ κ' ν α : Type} [Field α] [LinearOrder α] [IsStrictOrderedRing α] {rd : α → α} {δ : α}

theorem Net.crownFwdFloat_nonneg [Fintype ι] (hδ : 0 ≤ δ) (hδ1 : δ < 1) {eps bn : α} (he : 0 < eps) (hbn : 0 ≤ bn) {X : ι → α} (hX : ∀ i, 0 ≤ X i) (m : Mode)
    (n : Net α ι κ) (hn : n.WF) :
    (∀ k, 0 ≤ (n.crownFwdFloat m δ eps bn X).size k) ∧ 0 ≤ (n.crownFwdFloat m δ eps bn X).grow ∧ 0 ≤ (n.crownFwdFloat m δ eps bn X).top ∧
      (∀ k, 0 ≤ (n.crownFwdFloat m δ eps bn X).slack k) ∧
      ∀ (B : κ → α) (M : α), (∀ k, 0 ≤ B k) → 0 ≤ M → 0 ≤ (n.crownFwdFloat m δ eps bn X).next B M := by
  have g0 : ∀ m, 0 ≤ (1 + δ) ^ m := fun m => zero_le_one.trans (one_le_gamma hδ m)
  induction n with
  | input =>
    have t : (1 : α) ≤ if m = .ibp then 1 else (1 + δ) ^ (Fintype.card ι + 2) := by
      split
      · exact le_rfl
      · exact one_le_gamma hδ _
    have t' : (1 : α) ≤ (1 + δ) ^ (Fintype.card ι + 2) * if m = .ibp then 1 else (1 + δ) ^ (Fintype.card ι + 2) :=
      one_le_mul_of_one_le_of_one_le (one_le_gamma hδ _) t
    exact ⟨hX, zero_le_one.trans t', zero_le_one.trans t, fun i => mul_nonneg (sub_nonneg.2 t) (hX i), fun _ M _ hM => mul_nonneg (sub_nonneg.2 t') hM⟩
  | layer n l ih =>
    obtain ⟨i1, i2, i3, i4, i5⟩ := ih hn.1
    have L0 := fun k => ((n.modeErr_nonneg hδ hδ1 he hbn hX m hn.1 k).read hδ m (Fintype.card ι)).1
    have r0 := fun k => ((n.modeErr_nonneg hδ hδ1 he hbn hX m hn.1 k).read hδ m (Fintype.card ι)).2
    have own0 := fun k => l.ownFloat_nonneg hδ hδ1 he hbn hn.2 i1 L0 r0 k
    have size0 := fun k => l.sizeFloat_nonneg hδ hδ1 hbn hn.2 i1 L0 k
    refine ⟨size0, mul_nonneg (g0 _) i2, i2, fun k => add_nonneg (own0 k) (i5 _ _ (fun i => l.weightFloat_nonneg hδ hδ1 hbn hn.2 i k) (size0 k)),
      fun B M hB hM => add_nonneg (add_nonneg (Finset.sum_nonneg fun k _ => mul_nonneg (hB k) (own0 k)) (mul_nonneg (gamma_nonneg hδ _) hM)) (i5 _ _ (fun i => ?_) ?_)⟩
    · exact mul_nonneg (g0 _) (Finset.sum_nonneg fun k _ => mul_nonneg (l.weightFloat_nonneg hδ hδ1 hbn hn.2 i k) (hB k))
    · exact mul_nonneg (g0 _) hM
  | merge op n0 n1 _ _ => exact ⟨fun _ => le_rfl, le_rfl, le_rfl, fun _ => le_rfl, fun _ _ _ _ => le_rfl⟩

theorem Net.eval_fwdFloat [Fintype ι] (hδ : 0 ≤ δ) (hδ1 : δ < 1) {eps bn : α} (he : 0 < eps) (hbn : 0 ≤ bn) {X p : ι → α} (hp : ∀ i, |p i| ≤ X i) (m : Mode)
    (n : Net α ι κ) (hc : n.Chain) (hn : n.WF) (k : κ) : |n.eval p k| ≤ (n.crownFwdFloat m δ eps bn X).size k := by
  induction n with
  | input => exact hp k
  | layer n l ih =>
    exact l.eval_float hδ hδ1 hbn hn.2 (ih hc hn.1)
      (fun k => ((n.modeErr_nonneg hδ hδ1 he hbn (fun i => (abs_nonneg _).trans (hp i)) m hn.1 k).read hδ m (Fintype.card ι)).1) k
  | merge op n0 n1 _ _ => exact absurd hc (by simp [Net.Chain])

/-- Merging with the identity. -/
theorem merge_identity [Fintype ι] [DecidableEq ι] (hδ : 0 ≤ δ) (h : RelError rd δ) {X p : ι → α} (hpX : ∀ i, |p i| ≤ X i) {b g : Back ι ν α}
    (hg : MergeRounded rd Back.identity b g) {z sb M : ν → α} (h2 : b.Near p z sb) (hM : ∀ j, b.sizeB X j ≤ M j) :
    g.Near p z (fun j => sb j + ((1 + δ) ^ (Fintype.card ι + 2) - 1) * M j) ∧ ∀ j, g.sizeB X j ≤ (1 + δ) ^ (Fintype.card ι + 2) * M j := by
  have idn : ∀ k, (Back.identity (α := α)).sizeB X k = X k := fun k => by
    have : ∀ i, max |diagLike (fun _ => (1 : α)) i k| |diagLike (fun _ => (1 : α)) i k| * X i = if i = k then X i else 0 := fun i => by
      simp only [diagLike]; split <;> simp
    simp only [Back.sizeB, Back.identity, this]
    simp
  have n0 : (Back.identity (α := α)).Near p p (fun _ => 0) := fun k => by simpa using holds_identity p k
  have A : (Back.identity (α := α)).Bnd (fun i k : ι => max |(Back.identity (α := α)).wu i k| |(Back.identity (α := α)).wl i k|) := fun i k =>
    ⟨le_max_left _ _, le_max_right _ _⟩
  have B : b.Bnd (fun i k => max |b.wu i k| |b.wl i k|) := fun i k => ⟨le_max_left _ _, le_max_right _ _⟩
  obtain ⟨-, a2, a3⟩ := MergeRounded.near hδ h hg hpX (fun _ => le_rfl) A B n0 h2 (fun k => (idn k).le) hM
  refine ⟨a3.mono fun j => le_of_eq ?_, a2⟩
  simp only [mul_zero, Finset.sum_const_zero, zero_add]

theorem size_identity [Fintype ι] [DecidableEq ι] (X : ι → α) (k : ι) : (Back.identity (α := α)).sizeB X k = X k := by
  have : ∀ i, max |diagLike (fun _ => (1 : α)) i k| |diagLike (fun _ => (1 : α)) i k| * X i = if i = k then X i else 0 := fun i => by
    simp only [diagLike]; split <;> simp
  simp only [Back.sizeB, Back.identity, this]
  simp

theorem FuseRounded.near [Fintype ι] [DecidableEq ι] (hδ : 0 ≤ δ) (h : RelError rd δ) {m : Mode} {X p : ι → α} (hpX : ∀ i, |p i| ≤ X i) {b g : Back ι ν α}
    (hg : FuseRounded rd m b g) {z sb M : ν → α} (h2 : b.Near p z sb) (hM : ∀ j, b.sizeB X j ≤ M j) :
    g.Near p z (fun j => sb j + ((if m = .ibp then 1 else (1 + δ) ^ (Fintype.card ι + 2)) - 1) * M j) ∧
      ∀ j, g.sizeB X j ≤ (if m = .ibp then 1 else (1 + δ) ^ (Fintype.card ι + 2)) * M j := by
  cases m with
  | ibp =>
    obtain rfl : g = b := hg
    simpa using ⟨h2, hM⟩
  | affine => simpa using merge_identity hδ h hpX (g := g) hg h2 hM
  | hybrid => simpa using merge_identity hδ h hpX (g := g) hg h2 hM

theorem input_nearTo [Fintype ι] [DecidableEq ι] (m : Mode) (b : BoxOf ι α) {p : ι → α} (hp : p ∈ Box b.1 b.2) {X : ι → α} (hx : ∀ i, |b.1 i| ≤ X i ∧ |b.2 i| ≤ X i) :
    ModeNear m X (inputTensorsBox m b.1 b.2) p p (fun i => ⟨X i, 0, X i, 0⟩) := by
  have v := input_near m b hp
  refine ⟨fun hi k => ⟨(v.const hi k).1, ?_⟩, fun ha => ⟨fun k => ?_, (v.aff ha).2⟩⟩
  · simp only [inputTensorsBox, hi, if_true]
    exact ⟨(hx k).2, (hx k).1⟩
  · cases m <;> first | exact absurd ha Bool.false_ne_true | exact input_size b X k

/-- Both entries of `crown_` on a chain, with inputs at most `X`. -/
theorem Net.RoundedFwdCrown.nearTo [iF : Fintype ι] [DecidableEq ι] (hδ : 0 ≤ δ) (hδ1 : δ < 1) (h : RelError rd δ) {m : Mode} {eps : α} (he : 0 < eps) {sl : Slope}
    {bn : α} (hbn : 0 ≤ bn) {x : BoxOf ι α} {p : ι → α} (hp : p ∈ Box x.1 x.2) {X : ι → α} (hx : ∀ i, |x.1 i| ≤ X i ∧ |x.2 i| ≤ X i)
    {κ : Type} (n : Net α ι κ) (hc : n.Chain) (hn : n.WF) :
    (∀ b, (n.RoundedFwdCrown rd m eps sl bn x).1 b → b.Near p (n.eval p) (n.crownFwdFloat m δ eps bn X).slack ∧
      ∀ k, b.sizeB X k ≤ (n.crownFwdFloat m δ eps bn X).top * (n.crownFwdFloat m δ eps bn X).size k) ∧
    ∀ [Fintype κ], ∀ (ν : Type) (b : Back κ ν α) (z sb M : ν → α) (B : κ → ν → α), (∀ k j, 0 ≤ B k j) → b.Bnd B → b.Near (n.eval p) z sb →
      (∀ j, b.sizeB (n.crownFwdFloat m δ eps bn X).size j ≤ M j) → ∀ b', (n.RoundedFwdCrown rd m eps sl bn x).2 ν b b' →
      b'.Near p z (fun j => sb j + (n.crownFwdFloat m δ eps bn X).next (fun k => B k j) (M j)) ∧
        ∀ j, b'.sizeB X j ≤ (n.crownFwdFloat m δ eps bn X).grow * M j := by
  have hpX : ∀ i, |p i| ≤ X i := fun i => (peak_point x hp i).trans (max_le (hx i).1 (hx i).2)
  have hX0 : ∀ i, 0 ≤ X i := fun i => (abs_nonneg _).trans (hpX i)
  induction n with
  | input =>
    have n0 : (Back.identity (α := α)).Near p p (fun _ => 0) := fun k => by simpa using holds_identity p k
    constructor
    · intro b hb
      obtain ⟨a1, a2⟩ := FuseRounded.near hδ h hpX hb n0 (fun k => (size_identity X k).le)
      exact ⟨a1.mono fun j => le_of_eq (by simp only [Net.crownFwdFloat, zero_add]), a2⟩
    · rintro inst ν b z sb M B hB0 hB h2 hM b' ⟨b1, hb1, hb'⟩
      obtain rfl : iF = inst := Subsingleton.elim _ _
      obtain ⟨a1, a2⟩ := merge_identity hδ h hpX hb1 h2 hM
      obtain ⟨c1, c2⟩ := FuseRounded.near hδ h hpX hb' a1 a2
      refine ⟨c1.mono fun j => le_of_eq ?_, fun j => (c2 j).trans (le_of_eq ?_)⟩ <;> simp only [Net.crownFwdFloat] <;> ring
  | merge op n0 n1 _ _ => exact absurd hc (by simp [Net.Chain])
  | @layer κ₁ κ₂ _ _ i3 n l ih =>
    obtain ⟨hfirst, hnext⟩ := ih hc hn.1
    obtain ⟨p1, p2, p3, p4, p5⟩ := n.crownFwdFloat_nonneg hδ hδ1 he hbn hX0 m hn.1
    have hy := fun k => n.eval_fwdFloat hδ hδ1 he hbn hpX m hc hn.1 k
    set c := n.crownFwdFloat m δ eps bn X with hcdef
    set L : κ₁ → α := fun k => (n.modeErr m δ eps bn X k).readSize m δ (Fintype.card ι) with hLdef
    set r : κ₁ → α := fun k => (n.modeErr m δ eps bn X k).readSlack m δ (Fintype.card ι) with hrdef
    have L0 : ∀ k, 0 ≤ L k := fun k => ((n.modeErr_nonneg hδ hδ1 he hbn hX0 m hn.1 k).read hδ m (Fintype.card ι)).1
    have r0 : ∀ k, 0 ≤ r k := fun k => ((n.modeErr_nonneg hδ hδ1 he hbn hX0 m hn.1 k).read hδ m (Fintype.card ι)).2
    have own0 : ∀ k, 0 ≤ l.ownFloat δ eps bn c.size L r k := fun k => l.ownFloat_nonneg hδ hδ1 he hbn hn.2 p1 L0 r0 k
    have new : ∀ nb, (∃ (f : Full (BoxOf ι α) ι κ₁ α) (u lo : κ₁ → α), n.RoundedMode rd m eps sl bn (inputTensorsBox m x.1 x.2) f ∧ TightRounded rd m f u lo ∧
          l.RoundedBack rd eps sl bn u lo nb) →
        nb.Bnd (l.weightFloat δ bn) ∧ (∀ k, nb.sizeB c.size k ≤ l.sizeFloat δ bn c.size L k) ∧
        nb.Near (n.eval p) (l.eval (n.eval p)) (l.ownFloat δ eps bn c.size L r) := by
      rintro nb ⟨f, u, lo, h0, h1, h2⟩
      obtain ⟨a1, a2⟩ := Net.RoundedMode.near hδ hδ1 h he hbn hx hp hpX (input_nearTo m x hp hx) hn.1 h0
      have fx : f.x = x := a1
      have R := fun k => TightRounded.read hδ h (fun i => by rw [fx]; exact hx i) (by rw [fx]; exact hp) a2 h1 k
      obtain ⟨e1, e2, e3, -⟩ := h2.near hδ hδ1 h he hbn hn.2 hy (fun k => (R k).2.2) r0 (fun k => (R k).1)
      exact ⟨e1, e2, e3⟩
    constructor
    · rintro b ⟨nb, h1, h2⟩
      obtain ⟨e1, e2, e3⟩ := new nb h1
      exact hnext κ₂ nb _ _ _ _ (fun i k => l.weightFloat_nonneg hδ hδ1 hbn hn.2 i k) e1 e3 e2 b h2
    · rintro inst ν b z sb M B hB0 hB h2 hM b' ⟨nb, bm, h3, h4, h5⟩
      obtain rfl : i3 = inst := Subsingleton.elim _ _
      obtain ⟨e1, e2, e3⟩ := new nb h3
      obtain ⟨m1, m2, m3⟩ := MergeRounded.near hδ h h4 hy own0 e1 hB e3 h2 e2 hM
      obtain ⟨f1, f2⟩ := hnext ν bm z _ _ _ (fun i j => mul_nonneg (zero_le_one.trans (one_le_gamma hδ _)) (Finset.sum_nonneg fun k _ =>
        mul_nonneg (l.weightFloat_nonneg hδ hδ1 hbn hn.2 i k) (hB0 k j))) m1 m3 m2 b' h5
      refine ⟨f1.mono fun j => le_of_eq ?_, fun j => (f2 j).trans (le_of_eq ?_)⟩
      · simp only [Net.crownFwdFloat, ← hcdef, ← hLdef, ← hrdef]
        ring
      · simp only [Net.crownFwdFloat, ← hcdef]
        ring

/-- Both entries of `crown_` on a chain. -/
theorem Net.RoundedFwdCrown.near [iF : Fintype ι] [DecidableEq ι] (hδ : 0 ≤ δ) (hδ1 : δ < 1) (h : RelError rd δ) {m : Mode} {eps : α} (he : 0 < eps) {sl : Slope}
    {bn : α} (hbn : 0 ≤ bn) {x : BoxOf ι α} {p : ι → α} (hp : p ∈ Box x.1 x.2) {κ : Type} (n : Net α ι κ) (hc : n.Chain) (hn : n.WF) :
    (∀ b, (n.RoundedFwdCrown rd m eps sl bn x).1 b → b.Near p (n.eval p) (n.crownFwdFloat m δ eps bn (boxPeak x)).slack ∧
      ∀ k, b.sizeB (boxPeak x) k ≤ (n.crownFwdFloat m δ eps bn (boxPeak x)).top * (n.crownFwdFloat m δ eps bn (boxPeak x)).size k) ∧
    ∀ [Fintype κ], ∀ (ν : Type) (b : Back κ ν α) (z sb M : ν → α) (B : κ → ν → α), (∀ k j, 0 ≤ B k j) → b.Bnd B → b.Near (n.eval p) z sb →
      (∀ j, b.sizeB (n.crownFwdFloat m δ eps bn (boxPeak x)).size j ≤ M j) → ∀ b', (n.RoundedFwdCrown rd m eps sl bn x).2 ν b b' →
      b'.Near p z (fun j => sb j + (n.crownFwdFloat m δ eps bn (boxPeak x)).next (fun k => B k j) (M j)) ∧
        ∀ j, b'.sizeB (boxPeak x) j ≤ (n.crownFwdFloat m δ eps bn (boxPeak x)).grow * M j :=
  Net.RoundedFwdCrown.nearTo hδ hδ1 h he hbn hp (peak_le x) n hc hn

/-- The tensors returned from backward bounds of known size and error. -/
theorem BackOut.nearTo [Fintype ι] (hδ : 0 ≤ δ) (h : RelError rd δ) {m : Mode} {x : BoxOf ι α} {p : ι → α} (hp : p ∈ Box x.1 x.2) {X : ι → α}
    (hx : ∀ i, |x.1 i| ≤ X i ∧ |x.2 i| ≤ X i) {b : Back ι κ α}
    {g : Full (BoxOf ι α) ι κ α} (hg : BackOut rd m x b g) {y s M : κ → α} (v : b.Near p y s) (hM : ∀ k, b.sizeB X k ≤ M k) :
    ModeNear m X g p y (fun k => ⟨(1 + δ) ^ (Fintype.card ι + 2) * M k, s k + ((1 + δ) ^ (Fintype.card ι + 2) - 1) * M k, M k, s k⟩) := by
  refine ⟨fun hi k => ?_, fun ha => ?_⟩
  · have q := hg.1 hi k
    let f : Full (BoxOf ι α) ι κ α := ⟨x, fun _ => 0, b.wu, b.bu, fun _ => 0, b.wl, b.bl, fun _ => 0, fun _ => 0⟩
    have vf : Near .affine f p y s := ⟨fun hi => absurd hi (by simp [getIbp]), fun _ k => v k⟩
    exact upper_read (f := f) (X := X) hδ h hx hp vf hM q.1 q.2
  · obtain ⟨e1, e2, e3, e4⟩ := hg.2 ha
    refine ⟨fun k => ?_, ⟨fun hi => absurd hi (by simp [getIbp]), fun _ k => ?_⟩⟩
    · simp only [Full.sizeAff, e1, e2, e3, e4]
      exact hM k
    · simp only [e1, e2, e3, e4]
      exact v k

/-- The tensors returned from backward bounds of known size and error. -/
theorem BackOut.near [Fintype ι] (hδ : 0 ≤ δ) (h : RelError rd δ) {m : Mode} {x : BoxOf ι α} {p : ι → α} (hp : p ∈ Box x.1 x.2) {b : Back ι κ α}
    {g : Full (BoxOf ι α) ι κ α} (hg : BackOut rd m x b g) {y s M : κ → α} (v : b.Near p y s) (hM : ∀ k, b.sizeB (boxPeak x) k ≤ M k) :
    ModeNear m (boxPeak x) g p y (fun k => ⟨(1 + δ) ^ (Fintype.card ι + 2) * M k, s k + ((1 + δ) ^ (Fintype.card ι + 2) - 1) * M k, M k, s k⟩) :=
  hg.nearTo hδ h hp (peak_le x) v hM

end

end Decomon
