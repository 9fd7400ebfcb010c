import Verif.Lemmas.FloatMode
import Verif.Lemmas.SlackGraph
import Verif.Model.FloatGraph
import Verif.Props.Runs
import Verif.SpecFloatGraph

/-!
Lemmas for C157: the nodes of a graph in rounded arithmetic.
-/

namespace Decomon

section
variable {ι κ κ' α : Type} [Field α] [LinearOrder α] [IsStrictOrderedRing α] [Fintype ι] {rd : α → α} {δ : α}

/-! ### Sums -/

theorem ReadRounded.near (hδ : 0 ≤ δ) (h : RelError rd δ) {m : Mode} {f f' : Full (BoxOf ι α) ι κ α} (hg : ReadRounded rd m f f') {X p : ι → α}
    (hX : ∀ i, |f.x.1 i| ≤ X i ∧ |f.x.2 i| ≤ X i) (hp : p ∈ Box f.x.1 f.x.2) {y : κ → α} {e : κ → ModeErr α} (v : ModeNear m X f p y e) :
    ModeNear m X f' p y (fun k => (e k).read m δ (Fintype.card ι)) := by
  obtain ⟨⟨-, h1, h2, h3, h4⟩, ht⟩ := hg
  refine ⟨fun hi k => (ht hi).read hδ h hX hp v k, fun ha => ?_⟩
  obtain ⟨v1, v2⟩ := v.aff ha
  refine ⟨fun k => ?_, fun hi => absurd hi (by simp [getIbp]), fun _ k => ?_⟩
  · simp only [Full.sizeAff, h1, h2, h3, h4]
    exact v1 k
  · simp only [h1, h2, h3, h4]
    exact v2.aff rfl k

theorem plus_near (hδ : 0 ≤ δ) (h : RelError rd δ) {m : Mode} {f g : Full (BoxOf ι α) ι κ α} (hx : g.x = f.x) {X p : ι → α} (hp : p ∈ Box f.x.1 f.x.2)
    (hpX : ∀ i, |p i| ≤ X i) {y z : κ → α} {e e' : κ → ModeErr α} (v : ModeNear m X f p y e) (w : ModeNear m X g p z e') :
    ModeNear m X (plusRounded rd f g) p (fun k => y k + z k) (fun k => (e k).plus δ (e' k)) := by
  refine ⟨fun hi k => ?_, fun hi => ?_⟩
  · have q := float_add hδ h (f0 := constAff f.uc f.lc) (f1 := constAff g.uc g.lc) (g := constAff (plusRounded rd f g).uc (plusRounded rd f g).lc)
      ⟨rfl, fun i => i.elim, fun i => i.elim, fun _ => rfl, fun _ => rfl⟩
      (constAff_sound f.uc f.lc) (constAff_sound g.uc g.lc) (p := Empty.elim) (X := Empty.elim) (fun i => i.elim) (fun i => i.elim) (fun i => i.elim)
      (constAff_near fun k => (v.const hi k).1) (constAff_near fun k => (w.const hi k).1) (constAff_size fun k => (v.const hi k).2)
      (constAff_size fun k => (w.const hi k).2)
    exact const_of_aff q k
  · obtain ⟨a0, b0⟩ := v.aff hi
    obtain ⟨a1, b1⟩ := w.aff hi
    exact float_add hδ h (f0 := f) (f1 := g) (g := plusRounded rd f g) ⟨rfl, fun _ _ => rfl, fun _ _ => rfl, fun _ => rfl, fun _ => rfl⟩ (boxDomain_sound f.x.1 f.x.2)
      (by rw [hx]; exact boxDomain_sound f.x.1 f.x.2) hp (fun i => (abs_nonneg _).trans (hpX i)) hpX b0 b1 a0 a1

theorem float_over (hδ : 0 ≤ δ) (h : RelError rd δ) {c : α} (hc : 0 < c) {f : Full (BoxOf ι α) ι κ α} {p X : ι → α} (hX : ∀ i, 0 ≤ X i)
    (hp : ∀ i, |p i| ≤ X i) {y s M : κ → α} (v : Near .affine f p y s) (hM : ∀ k, f.sizeAff X k ≤ M k) :
    (∀ k, (overRounded rd c f).sizeAff X k ≤ (1 + δ) * (M k / c)) ∧
      Near .affine (overRounded rd c f) p (fun k => y k / c) (fun k => s k / c + δ * (M k / c)) := by
  have key : Near .affine (overRounded id c f) p (fun k => y k / c) (fun k => s k / c) := by
    refine ⟨fun hi => absurd hi (by simp [getIbp]), fun _ k => ?_⟩
    have := v.aff rfl k
    simp only [overRounded, id_eq, affEval_div, ← sub_div, ← add_div]
    exact ⟨div_le_div_of_nonneg_right this.1 hc.le, div_le_div_of_nonneg_right this.2 hc.le⟩
  have st : ∀ a b : α, |a| ≤ b → |rd (a / c) - a / c| ≤ (1 + δ - 1) * (b / c) ∧ |a / c| ≤ b / c := fun a b ha => by
    have : |a / c| ≤ b / c := by rw [abs_div, abs_of_pos hc]; exact div_le_div_of_nonneg_right ha hc.le
    exact ⟨by rw [add_sub_cancel_left]; exact (h _).trans (mul_le_mul_of_nonneg_left this hδ), this⟩
  refine (close_step hX key hp (1 + δ) (by linarith) (fun i k => max |f.wu i k| |f.wl i k| / c) (fun k => max |f.bu k| |f.bl k| / c)
    (fun i k => ⟨st _ _ (le_max_left _ _), st _ _ (le_max_right _ _)⟩) (fun k => ⟨st _ _ (le_max_left _ _), st _ _ (le_max_right _ _)⟩) fun k => ?_).imp id
    fun q => q.congr (fun _ => rfl) fun k => by ring
  have e : ∑ i, max |f.wu i k| |f.wl i k| / c * X i = (∑ i, max |f.wu i k| |f.wl i k| * X i) / c := by
    rw [Finset.sum_div]
    exact Finset.sum_congr rfl fun i _ => by ring
  rw [e, ← add_div]
  exact div_le_div_of_nonneg_right (hM k) hc.le

theorem over_near (hδ : 0 ≤ δ) (h : RelError rd δ) {c : α} (hc : 0 < c) {m : Mode} {f : Full (BoxOf ι α) ι κ α} {X p : ι → α} (hpX : ∀ i, |p i| ≤ X i)
    {y : κ → α} {e : κ → ModeErr α} (v : ModeNear m X f p y e) :
    ModeNear m X (overRounded rd c f) p (fun k => y k / c) (fun k => (e k).over δ c) := by
  refine ⟨fun hi k => ?_, fun hi => ?_⟩
  · exact const_of_aff (float_over hδ h hc (f := constAff f.uc f.lc) (p := Empty.elim) (X := Empty.elim) (fun i => i.elim) (fun i => i.elim)
      (constAff_near fun k => (v.const hi k).1) (constAff_size fun k => (v.const hi k).2)) k
  · obtain ⟨a, b⟩ := v.aff hi
    exact float_over hδ h hc (fun i => (abs_nonneg _).trans (hpX i)) hpX b a

theorem ModeErr.Nonneg.read' (hδ : 0 ≤ δ) {e : ModeErr α} (h : e.Nonneg) (m : Mode) (n : ℕ) : (e.read m δ n).Nonneg :=
  ⟨(h.read hδ m n).1, (h.read hδ m n).2, h.2.2⟩

theorem ModeErr.Nonneg.plus (hδ : 0 ≤ δ) {e e' : ModeErr α} (h : e.Nonneg) (h' : e'.Nonneg) : (e.plus δ e').Nonneg := by
  obtain ⟨a1, a2, a3, a4⟩ := h
  obtain ⟨b1, b2, b3, b4⟩ := h'
  refine ⟨?_, ?_, ?_, ?_⟩ <;> simp only [ModeErr.plus] <;> positivity

theorem ModeErr.Nonneg.over (hδ : 0 ≤ δ) {c : α} (hc : 0 < c) {e : ModeErr α} (h : e.Nonneg) : (e.over δ c).Nonneg := by
  obtain ⟨a1, a2, a3, a4⟩ := h
  refine ⟨?_, ?_, ?_, ?_⟩ <;> simp only [ModeErr.over] <;> positivity

/-- The tensors `f` have the box `x` and bound the value `z.1` with the sizes and errors `z.2`. -/
def NodeNear (m : Mode) (X p : ι → α) (x : BoxOf ι α) (f : Full (BoxOf ι α) ι κ α) (z : (κ → α) × (κ → ModeErr α)) : Prop :=
  f.x = x ∧ ModeNear m X f p z.1 z.2 ∧ ∀ k, (z.2 k).Nonneg

variable {m : Mode} {X p : ι → α} {x : BoxOf ι α}

theorem plusMany_near (hδ : 0 ≤ δ) (h : RelError rd δ) (hp : p ∈ Box x.1 x.2) (hpX : ∀ i, |p i| ≤ X i) (fs : List (Full (BoxOf ι α) ι κ α))
    (zs : List ((κ → α) × (κ → ModeErr α))) (hf : List.Forall₂ (NodeNear m X p x) fs zs) (f0 : Full (BoxOf ι α) ι κ α) (z0 : (κ → α) × (κ → ModeErr α))
    (h0 : NodeNear m X p x f0 z0) :
    NodeNear m X p x (fs.foldl (plusRounded rd) f0)
      (fun k => z0.1 k + (zs.map fun z => z.1 k).sum, fun k => (zs.map fun z => z.2 k).foldl (ModeErr.plus δ) (z0.2 k)) := by
  induction hf generalizing f0 z0 with
  | nil => simpa using h0
  | @cons f z fs zs hf _ ih =>
    have := ih (plusRounded rd f0 f) (fun k => z0.1 k + z.1 k, fun k => (z0.2 k).plus δ (z.2 k))
      ⟨h0.1, plus_near hδ h (hf.1.trans h0.1.symm) (by rwa [h0.1]) hpX h0.2.1 hf.2.1, fun k => (h0.2.2 k).plus hδ (hf.2.2 k)⟩
    simpa only [List.map_cons, List.sum_cons, List.foldl_cons, add_assoc] using this

theorem read_node (hδ : 0 ≤ δ) (h : RelError rd δ) (hX : ∀ i, |x.1 i| ≤ X i ∧ |x.2 i| ≤ X i) (hp : p ∈ Box x.1 x.2) {f f' : Full (BoxOf ι α) ι κ α}
    {z : (κ → α) × (κ → ModeErr α)} (hf : NodeNear m X p x f z) (hr : ReadRounded rd m f f') :
    NodeNear m X p x f' (z.1, fun k => (z.2 k).read m δ (Fintype.card ι)) :=
  ⟨hr.1.1.trans hf.1, hr.near hδ h (by rwa [hf.1]) (by rwa [hf.1]) hf.2.1, fun k => (hf.2.2 k).read' hδ m _⟩

theorem AddMany.near (hδ : 0 ≤ δ) (h : RelError rd δ) (hX : ∀ i, |x.1 i| ≤ X i ∧ |x.2 i| ≤ X i) (hp : p ∈ Box x.1 x.2) (hpX : ∀ i, |p i| ≤ X i)
    {f0 g : Full (BoxOf ι α) ι κ α} {fs : List (Full (BoxOf ι α) ι κ α)} {z0 : (κ → α) × (κ → ModeErr α)} {zs : List ((κ → α) × (κ → ModeErr α))}
    (hf : List.Forall₂ (NodeNear m X p x) fs zs) (h0 : NodeNear m X p x f0 z0) (hg : AddMany rd m f0 fs g) :
    NodeNear m X p x g (fun k => z0.1 k + (zs.map fun z => z.1 k).sum,
      fun k => NaryOp.modeErr m δ 1 (Fintype.card ι) .add (z0.2 k) (zs.map fun z => z.2 k)) := by
  obtain ⟨f0', fs', r0, rs, rfl⟩ := hg
  have hf' : List.Forall₂ (NodeNear m X p x) fs' (zs.map fun z => (z.1, fun k => (z.2 k).read m δ (Fintype.card ι))) := by
    clear h0
    induction hf generalizing fs' with
    | nil => cases rs; exact .nil
    | cons a _ ih => cases rs with | cons b bs => exact .cons (read_node hδ h hX hp a b) (ih _ bs)
  have := plusMany_near hδ h hp hpX fs' _ hf' f0' _ (read_node hδ h hX hp h0 r0)
  simpa only [NaryOp.modeErr, List.map_map, Function.comp_def] using this

theorem AverageMany.near (hδ : 0 ≤ δ) (h : RelError rd δ) (hX : ∀ i, |x.1 i| ≤ X i ∧ |x.2 i| ≤ X i) (hp : p ∈ Box x.1 x.2) (hpX : ∀ i, |p i| ≤ X i)
    {f0 g : Full (BoxOf ι α) ι κ α} {fs : List (Full (BoxOf ι α) ι κ α)} {z0 : (κ → α) × (κ → ModeErr α)} {zs : List ((κ → α) × (κ → ModeErr α))}
    (hf : List.Forall₂ (NodeNear m X p x) fs zs) (h0 : NodeNear m X p x f0 z0) (hg : AverageMany rd m f0 fs g) :
    NodeNear m X p x g (fun k => (z0.1 k + (zs.map fun z => z.1 k).sum) / (zs.length + 1),
      fun k => NaryOp.modeErr m δ 1 (Fintype.card ι) .average (z0.2 k) (zs.map fun z => z.2 k)) := by
  obtain ⟨s, hs, rfl⟩ := hg
  have c : (0 : α) < zs.length + 1 := by positivity
  obtain ⟨a1, a2, a3⟩ := AddMany.near hδ h hX hp hpX hf h0 hs
  rw [hf.length_eq]
  have := over_near hδ h c hpX a2
  refine ⟨a1, ?_, fun k => ?_⟩
  · simpa only [NaryOp.modeErr, List.length_map] using this
  · have := (a3 k).over hδ c
    simpa only [NaryOp.modeErr, List.length_map] using this

/-! ### `Maximum` and `Minimum` -/

theorem MaxMany.near (hδ : 0 ≤ δ) (hδ1 : δ < 1) (h : RelError rd δ) {eps : α} (he : 0 < eps) (hX : ∀ i, |x.1 i| ≤ X i ∧ |x.2 i| ≤ X i)
    (hp : p ∈ Box x.1 x.2) (hpX : ∀ i, |p i| ≤ X i) {fs : List (Full (BoxOf ι α) ι κ α)} {zs : List ((κ → α) × (κ → ModeErr α))}
    (hf : List.Forall₂ (NodeNear m X p x) fs zs) {f0 g : Full (BoxOf ι α) ι κ α} {z0 : (κ → α) × (κ → ModeErr α)} (h0 : NodeNear m X p x f0 z0)
    (hg : MaxMany rd m eps f0 fs g) :
    NodeNear m X p x g (fun k => (zs.map fun z => z.1 k).foldl max (z0.1 k),
      fun k => NaryOp.modeErr m δ eps (Fintype.card ι) .maximum (z0.2 k) (zs.map fun z => z.2 k)) := by
  induction hf generalizing f0 z0 with
  | nil => obtain rfl := hg; exact h0
  | @cons f z fs zs hf _ ih =>
    obtain ⟨a, ha, hg⟩ := hg
    obtain ⟨q1, q2⟩ := ha.near hδ hδ1 h he (hf.1.trans h0.1.symm) (by rwa [h0.1]) (by rwa [h0.1]) hpX h0.2.2 hf.2.2 h0.2.1 hf.2.1
    exact ih (f0 := a) (z0 := (fun k => max (z0.1 k) (z.1 k), fun k => MergeOp.maximum.modeErr m δ eps (Fintype.card ι) (z0.2 k) (z.2 k)))
      ⟨q1.trans h0.1, q2, fun k => MergeOp.modeErr_nonneg hδ hδ1 he .maximum m _ (h0.2.2 k) (hf.2.2 k)⟩ hg

theorem minus_node {f : Full (BoxOf ι α) ι κ α} {z : (κ → α) × (κ → ModeErr α)} (hf : NodeNear m X p x f z) :
    NodeNear m X p x (minusT boxDomain m f) (fun k => -z.1 k, z.2) := ⟨by rw [minus_x, hf.1], minus_near hf.2.1, hf.2.2⟩

theorem MinMany.near (hδ : 0 ≤ δ) (hδ1 : δ < 1) (h : RelError rd δ) {eps : α} (he : 0 < eps) (hX : ∀ i, |x.1 i| ≤ X i ∧ |x.2 i| ≤ X i)
    (hp : p ∈ Box x.1 x.2) (hpX : ∀ i, |p i| ≤ X i) {fs : List (Full (BoxOf ι α) ι κ α)} {zs : List ((κ → α) × (κ → ModeErr α))}
    (hf : List.Forall₂ (NodeNear m X p x) fs zs) {f0 g : Full (BoxOf ι α) ι κ α} {z0 : (κ → α) × (κ → ModeErr α)} (h0 : NodeNear m X p x f0 z0)
    (hg : MinMany rd m eps f0 fs g) :
    NodeNear m X p x g (fun k => (zs.map fun z => z.1 k).foldl min (z0.1 k),
      fun k => NaryOp.modeErr m δ eps (Fintype.card ι) .minimum (z0.2 k) (zs.map fun z => z.2 k)) := by
  have neg : (∃ a, MaxMany rd m eps (minusT boxDomain m f0) (fs.map (minusT boxDomain m)) a ∧ g = minusT boxDomain m a) →
      NodeNear m X p x g (fun k => (zs.map fun z => z.1 k).foldl min (z0.1 k),
        fun k => NaryOp.modeErr m δ eps (Fintype.card ι) .minimum (z0.2 k) (zs.map fun z => z.2 k)) := by
    rintro ⟨a, ha, rfl⟩
    have hf' : List.Forall₂ (NodeNear m X p x) (fs.map (minusT boxDomain m)) (zs.map fun z => (fun k => -z.1 k, z.2)) := by
      rw [List.forall₂_map_left_iff, List.forall₂_map_right_iff]
      exact hf.imp fun _ _ => minus_node
    have q := minus_node (MaxMany.near hδ hδ1 h he hX hp hpX hf' (minus_node h0) ha)
    have e : ∀ k, -((zs.map fun z => ((fun k => -z.1 k, z.2) : (κ → α) × (κ → ModeErr α))).map fun z => z.1 k).foldl max (-z0.1 k) =
        (zs.map fun z => z.1 k).foldl min (z0.1 k) := fun k => by
      rw [← foldl_max_neg]
      simp [Function.comp_def]
    simp only [e] at q
    simpa only [NaryOp.modeErr, List.map_map, Function.comp_def] using q
  cases hf with
  | nil => obtain rfl := hg; exact h0
  | cons _ _ => exact neg hg

/-! ### `MaxPooling2D` -/

theorem sup_near {o : Type} {win : o → Finset κ} (hw : ∀ k, (win k).Nonempty) {u l y s S : κ → α}
    (h : ∀ j, (l j - s j ≤ y j ∧ y j ≤ u j + s j) ∧ |u j| ≤ S j ∧ |l j| ≤ S j) (k : o) :
    (maxPool win hw l k - (win k).sup' (hw k) s ≤ (win k).sup' (hw k) y ∧ (win k).sup' (hw k) y ≤ maxPool win hw u k + (win k).sup' (hw k) s) ∧
      |maxPool win hw u k| ≤ (win k).sup' (hw k) S ∧ |maxPool win hw l k| ≤ (win k).sup' (hw k) S := by
  have abs' : ∀ t : κ → α, (∀ j, |t j| ≤ S j) → |maxPool win hw t k| ≤ (win k).sup' (hw k) S := fun t ht => by
    obtain ⟨j, hj, e⟩ := Finset.exists_mem_eq_sup' (hw k) t
    rw [maxPool, e]
    exact (ht j).trans (Finset.le_sup' S hj)
  refine ⟨⟨?_, ?_⟩, abs' u fun j => (h j).2.1, abs' l fun j => (h j).2.2⟩
  · rw [sub_le_iff_le_add]
    refine Finset.sup'_le _ _ fun j hj => ?_
    have h1 : y j ≤ (win k).sup' (hw k) y := Finset.le_sup' _ hj
    have h2 : s j ≤ (win k).sup' (hw k) s := Finset.le_sup' _ hj
    linarith [(h j).1.1]
  · refine Finset.sup'_le _ _ fun j hj => ?_
    have h1 : u j ≤ maxPool win hw u k := Finset.le_sup' _ hj
    have h2 : s j ≤ (win k).sup' (hw k) s := Finset.le_sup' _ hj
    linarith [(h j).1.2]

theorem PoolRounded.near {o : Type} (hδ : 0 ≤ δ) (h : RelError rd δ) {win : o → Finset κ} {hw : ∀ k, (win k).Nonempty} {f : Full (BoxOf ι α) ι κ α}
    {g : Full (BoxOf ι α) ι o α} (hg : PoolRounded rd m win hw f g) (hX : ∀ i, |f.x.1 i| ≤ X i ∧ |f.x.2 i| ≤ X i) (hp : p ∈ Box f.x.1 f.x.2)
    {y : κ → α} {e : κ → ModeErr α} (v : ModeNear m X f p y e) :
    ModeNear m X g p (fun k => (win k).sup' (hw k) y) (fun k =>
      ⟨(win k).sup' (hw k) fun j => (e j).readSize m δ (Fintype.card ι), (win k).sup' (hw k) fun j => (e j).readSlack m δ (Fintype.card ι),
        (win k).sup' (hw k) fun j => (e j).readSize m δ (Fintype.card ι), (win k).sup' (hw k) fun j => (e j).readSlack m δ (Fintype.card ι)⟩) := by
  obtain ⟨u, l, ht, -, hc, ha⟩ := hg
  have R := sup_near hw fun j => ht.read hδ h hX hp v j
  refine ⟨fun hi k => ?_, fun hi => ?_⟩
  · rw [(hc hi).1, (hc hi).2]; exact R k
  · obtain ⟨z, b1, b2⟩ := ha hi
    refine ⟨fun k => ?_, fun hi => absurd hi (by simp [getIbp]), fun _ k => ?_⟩
    · simp only [Full.sizeAff, (z _ k).1, (z _ k).2, abs_zero, max_self, zero_mul, Finset.sum_const_zero, zero_add, b1, b2]
      exact max_le (R k).2.1 (R k).2.2
    · simp only [(z _ k).1, (z _ k).2, b1, b2, affEval, zero_mul, mul_zero, Finset.sum_const_zero, zero_add]
      exact (R k).1

end

/-! ### The nodes -/

section
variable {n : ℕ} {rd : ℝ → ℝ} {δ : ℝ} {m : Mode} {X p : Idx [n] → ℝ} {x : BoxOf (Idx [n]) ℝ}

theorem NaryOp.RoundedMode.near {κ : Type} (hδ : 0 ≤ δ) (hδ1 : δ < 1) (h : RelError rd δ) {eps : ℝ} (he : 0 < eps) (hX : ∀ i, |x.1 i| ≤ X i ∧ |x.2 i| ≤ X i)
    (hp : p ∈ Box x.1 x.2) (hpX : ∀ i, |p i| ≤ X i) {op : NaryOp} {r : ℕ} {f0 g : Full (BoxOf (Idx [n]) ℝ) (Idx [n]) κ ℝ}
    {fs : Fin r → Full (BoxOf (Idx [n]) ℝ) (Idx [n]) κ ℝ} {y0 : κ → ℝ} {ys : Fin r → κ → ℝ} {e0 : κ → ModeErr ℝ} {es : Fin r → κ → ModeErr ℝ}
    (h0 : NodeNear m X p x f0 (y0, e0)) (hf : ∀ i, NodeNear m X p x (fs i) (ys i, es i)) (hg : op.RoundedMode rd m eps f0 (List.ofFn fs) g) :
    NodeNear m X p x g (fun k => op.eval (y0 k) fun i => ys i k,
      fun k => op.modeErr m δ eps (Fintype.card (Idx [n])) (e0 k) (List.ofFn fun i => es i k)) := by
  have hf' : List.Forall₂ (NodeNear m X p x) (List.ofFn fs) (List.ofFn fun i => (ys i, es i)) := forall₂_ofFn _ _ _ hf
  have hy : ∀ k, (List.ofFn fun i => (ys i, es i)).map (fun z => z.1 k) = List.ofFn fun i => ys i k := fun k => by simp [List.map_ofFn, Function.comp_def]
  have hs : ∀ k, (List.ofFn fun i => (ys i, es i)).map (fun z => z.2 k) = List.ofFn fun i => es i k := fun k => by simp [List.map_ofFn, Function.comp_def]
  cases op with
  | add =>
    have := AddMany.near hδ h hX hp hpX hf' h0 hg
    simp only [hy, hs, List.sum_ofFn] at this
    exact this
  | average =>
    have := AverageMany.near hδ h hX hp hpX hf' h0 hg
    simp only [hy, hs, List.sum_ofFn, List.length_ofFn] at this
    exact this
  | maximum =>
    have := MaxMany.near hδ hδ1 h he hX hp hpX hf' h0 hg
    simp only [hy, hs, fold_ofFn] at this
    exact this
  | minimum =>
    have := MinMany.near hδ hδ1 h he hX hp hpX hf' h0 hg
    simp only [hy, hs, fold_ofFn] at this
    exact this
  | multiply => exact hg.elim

theorem Step.RoundedMode.near {eps bn : ℝ} {sl : Slope} (hδ : 0 ≤ δ) (hδ1 : δ < 1) (h : RelError rd δ) (he : 0 < eps) (hbn : 0 ≤ bn)
    (hX : ∀ i, |x.1 i| ≤ X i ∧ |x.2 i| ≤ X i) (hp : p ∈ Box x.1 x.2) (hpX : ∀ i, |p i| ≤ X i) {a b : List ℕ} {l : Step a b} (hl : l.WF)
    {f : Full (BoxOf (Idx [n]) ℝ) (Idx [n]) (Idx a) ℝ} {g : Full (BoxOf (Idx [n]) ℝ) (Idx [n]) (Idx b) ℝ} {y : Idx a → ℝ} {e : Idx a → ModeErr ℝ}
    (hf : NodeNear m X p x f (y, e)) (hg : l.RoundedMode rd m eps sl bn f g) :
    NodeNear m X p x g (l.eval y, l.modeErr m δ eps bn (Fintype.card (Idx [n])) e) := by
  obtain ⟨hx, v, h0⟩ := hf
  cases l with
  | lay l =>
    exact ⟨(Lay.RoundedMode.x hg).trans hx, Lay.RoundedMode.near hδ hδ1 h he hbn hl hg (by rwa [hx]) (by rwa [hx]) hpX h0 v,
      l.modeErr_nonneg hδ hδ1 he hbn hl m _ h0⟩
  | act g => exact hg.elim
  | pool win hw =>
    have hx' : g.x = f.x := hg.choose_spec.choose_spec.2.1
    have n1 : ∀ k, 0 ≤ (win k).sup' (hw k) fun j => (e j).readSize m δ (Fintype.card (Idx [n])) := fun k => by
      obtain ⟨j, hj⟩ := hw k
      exact ((h0 j).read hδ m _).1.trans (Finset.le_sup' (fun j => (e j).readSize m δ (Fintype.card (Idx [n]))) hj)
    have n2 : ∀ k, 0 ≤ (win k).sup' (hw k) fun j => (e j).readSlack m δ (Fintype.card (Idx [n])) := fun k => by
      obtain ⟨j, hj⟩ := hw k
      exact ((h0 j).read hδ m _).2.trans (Finset.le_sup' (fun j => (e j).readSlack m δ (Fintype.card (Idx [n]))) hj)
    exact ⟨hx'.trans hx, PoolRounded.near hδ h hg (by rwa [hx]) (by rwa [hx]) v, fun k => ⟨n1 k, n2 k, n1 k, n2 k⟩⟩

theorem KOp.RoundedMode.near {eps bn : ℝ} {sl : Slope} (hδ : 0 ≤ δ) (hδ1 : δ < 1) (h : RelError rd δ) (he : 0 < eps) (hbn : 0 ≤ bn)
    (hX : ∀ i, |x.1 i| ≤ X i ∧ |x.2 i| ≤ X i) (hp : p ∈ Box x.1 x.2) (hpX : ∀ i, |p i| ≤ X i) {inp : Full (BoxOf (Idx [n]) ℝ) (Idx [n]) (Idx [n]) ℝ}
    (hi : NodeNear m X p x inp (p, fun i => ⟨X i, 0, X i, 0⟩)) {as : List (List ℕ)} {b : List ℕ} (o : KOp n as b) (ho : o.WF)
    (fs : HList (fun s => Full (BoxOf (Idx [n]) ℝ) (Idx [n]) (Idx s) ℝ) as) (ys : HList (fun s => Idx s → ℝ) as) (es : HList (fun s => Idx s → ModeErr ℝ) as)
    (hf : HAll3 (fun _ f y e => NodeNear m X p x f (y, e)) fs ys es) (g : Full (BoxOf (Idx [n]) ℝ) (Idx [n]) (Idx b) ℝ)
    (hg : o.RoundedMode rd m eps sl bn inp fs g) : NodeNear m X p x g (o.eval p ys, o.modeErr m δ eps bn X es) := by
  cases o with
  | input => obtain rfl := hg; exact hi
  | layer l => cases hf with | cons hf _ => exact Step.RoundedMode.near hδ hδ1 h he hbn hX hp hpX ho hf hg
  | merge op a r => cases hf with | cons hf ht => exact NaryOp.RoundedMode.near hδ hδ1 h he hX hp hpX hf (fun i => ht.rep r _ _ _ i) hg
  | subtract a =>
    cases hf with
    | cons h0 ht =>
      cases ht with
      | cons h1 _ =>
        have hx : (minusT boxDomain m _).x = _ := (minus_node h1).1.trans h0.1.symm
        have := AddMode.near hδ h hg hx (by rwa [h0.1]) (by rwa [h0.1]) hpX h0.2.1 (minus_near h1.2.1)
        simp only [← sub_eq_add_neg] at this
        exact ⟨(AddMode.x hg).trans h0.1, this, fun k => (h0.2.2 k).add hδ (h1.2.2 k) m _⟩
  | concat as j0 b pos =>
    obtain ⟨fs', hr, hx, hc, ha⟩ := hg
    have q := fun j => read_node hδ h hX hp (hf.get j) (hr j)
    refine ⟨hx.trans (hf.get j0).1, ⟨fun hi k => ?_, fun hi => ⟨fun k => ?_, fun hi => absurd hi (by simp [getIbp]), fun _ k => ?_⟩⟩, fun k => (q _).2.2 _⟩
    · rw [(hc hi k).1, (hc hi k).2]
      exact (q (pos k).1).2.1.const hi (pos k).2
    · have := ((q (pos k).1).2.1.aff hi).1 (pos k).2
      obtain ⟨w, b1, b2⟩ := ha hi k
      simp only [Full.sizeAff, (w _).1, (w _).2, b1, b2]
      exact this
    · have := ((q (pos k).1).2.1.aff hi).2.aff rfl (pos k).2
      obtain ⟨w, b1, b2⟩ := ha hi k
      simp only [(w _).1, (w _).2, b1, b2]
      exact this
  | dot e0 e1 e => exact hg.elim

end

/-! ### The call of the Keras model -/

section
variable {κ κ' α : Type} [Field α] [LinearOrder α] [IsStrictOrderedRing α] {rd : α → α} {δ : α}

/-- The computed value `w` has the size and the distance from `y` given by `e`. -/
def CallNear (w y : α) (e : CallErr α) : Prop := |w| ≤ e.size ∧ |w - y| ≤ e.err

theorem CallNear.plus (hδ : 0 ≤ δ) (h : RelError rd δ) {w w' y y' : α} {e e' : CallErr α} (a : CallNear w y e) (b : CallNear w' y' e') :
    CallNear (rd (w + w')) (y + y') (e.plus δ e') := by
  have q := (abs_add_le w w').trans (add_le_add a.1 b.1)
  have r := (h (w + w')).trans (mul_le_mul_of_nonneg_left q hδ)
  have a1 := abs_le.1 a.2
  have b1 := abs_le.1 b.2
  have q1 := abs_le.1 q
  have r1 := abs_le.1 r
  refine ⟨?_, ?_⟩ <;> simp only [CallErr.plus] <;> rw [abs_le] <;> constructor <;> linarith

theorem CallNear.minus (hδ : 0 ≤ δ) (h : RelError rd δ) {w w' y y' : α} {e e' : CallErr α} (a : CallNear w y e) (b : CallNear w' y' e') :
    CallNear (rd (w - w')) (y - y') (e.plus δ e') := by
  have := a.plus hδ h (w' := -w') (y' := -y') (e' := e') ⟨by rw [abs_neg]; exact b.1, by
    rw [show -w' - -y' = -(w' - y') by ring, abs_neg]; exact b.2⟩
  simpa only [← sub_eq_add_neg] using this

theorem CallNear.over (hδ : 0 ≤ δ) (h : RelError rd δ) {c : α} (hc : 0 < c) {w y : α} {e : CallErr α} (a : CallNear w y e) :
    CallNear (rd (w / c)) (y / c) (e.over δ c) := by
  have q : |w / c| ≤ e.size / c := by rw [abs_div, abs_of_pos hc]; exact div_le_div_of_nonneg_right a.1 hc.le
  have q2 : |w / c - y / c| ≤ e.err / c := by rw [← sub_div, abs_div, abs_of_pos hc]; exact div_le_div_of_nonneg_right a.2 hc.le
  have r := (h (w / c)).trans (mul_le_mul_of_nonneg_left q hδ)
  have q1 := abs_le.1 q
  have a1 := abs_le.1 q2
  have r1 := abs_le.1 r
  refine ⟨?_, ?_⟩ <;> simp only [CallErr.over] <;> rw [abs_le] <;> constructor <;> linarith

theorem CallNear.max {w w' y y' : α} {e e' : CallErr α} (a : CallNear w y e) (b : CallNear w' y' e') : CallNear (max w w') (max y y') (e.join e') :=
  ⟨abs_max_le' a.1 b.1, (abs_max_sub_max_le_max _ _ _ _).trans (max_le_max a.2 b.2)⟩

theorem CallNear.min {w w' y y' : α} {e e' : CallErr α} (a : CallNear w y e) (b : CallNear w' y' e') : CallNear (min w w') (min y y') (e.join e') :=
  ⟨abs_min_le' a.1 b.1, (abs_min_sub_min_le_max _ _ _ _).trans (max_le_max a.2 b.2)⟩

theorem CallNear.fold {f g : α → α → α} {c : CallErr α → CallErr α → CallErr α}
    (step : ∀ {w w' y y' : α} {e e' : CallErr α}, CallNear w y e → CallNear w' y' e' → CallNear (f w w') (g y y') (c e e')) {ws : List α}
    {zs : List (α × CallErr α)} (h : List.Forall₂ (fun w z => CallNear w z.1 z.2) ws zs) {w y : α} {e : CallErr α} (h0 : CallNear w y e) :
    CallNear (ws.foldl f w) ((zs.map Prod.fst).foldl g y) ((zs.map Prod.snd).foldl c e) := by
  induction h generalizing w y e with
  | nil => exact h0
  | cons a _ ih => exact ih (step h0 a)

theorem foldl_add (l : List α) (a : α) : l.foldl (fun a b => a + b) a = a + l.sum := by
  induction l generalizing a with
  | nil => simp
  | cons b t ih => simp [ih, add_assoc]

theorem Lay.call_near [Fintype κ] (hδ : 0 ≤ δ) (h : RelError rd δ) (bk : α → α → α → α → α → α)
    (hbk : ∀ g b m s x y, 0 ≤ x → x ≤ y → bk g b m s x ≤ bk g b m s y) (σ : α) (hσ : 0 < σ) (l : Lay α κ κ') (hl : l.WF) (hsd : l.SdAbove σ)
    {w y : κ → α} {e : κ → CallErr α} (hw : ∀ k, CallNear (w k) (y k) (e k)) {v : κ' → α} (hv : l.RoundedCall rd bk w v) (k : κ') :
    CallNear (v k) (l.eval y k) (l.callErr (roundError δ bk) σ e k) := by
  have r := (l.rounded_call hδ h bk w v hv k).trans
    ((roundError_mono hδ bk hbk).lay l _ (fun j => (e j).size) (fun j => ⟨abs_nonneg _, (hw j).1⟩) k)
  have s := l.eval_size hl σ hσ hsd w _ (fun j => (hw j).1) k
  have e0 : ∀ j, 0 ≤ (e j).err := fun j => (abs_nonneg _).trans (hw j).2
  have d := l.sticks_out 1 one_pos .vSlope hl σ hσ hsd w w y (fun j => (e j).size) (fun j => (e j).err) (fun j => (hw j).1) (fun j => (hw j).1) e0
    (fun j => by have := abs_le.1 (hw j).2; constructor <;> linarith) k
  have x := (l.forward_exact (emptyDomain α) .ibp 1 .vSlope (ibpOnly w w) (fun e => e.elim) (fun w b => by simp [emptyDomain, affEval]) w
    ⟨fun _ _ => ⟨rfl, rfl⟩, fun ha => absurd ha (by simp [getAffine])⟩).const rfl k
  rw [x.1, x.2] at d
  have r1 := abs_le.1 r
  have s1 := abs_le.1 s
  refine ⟨?_, ?_⟩ <;> simp only [Lay.callErr] <;> rw [abs_le] <;> constructor <;> linarith

end

section
variable {n : ℕ} {rd : ℝ → ℝ} {δ : ℝ}

theorem NaryOp.call_near (hδ : 0 ≤ δ) (h : RelError rd δ) {op : NaryOp} (ho : op ≠ .multiply) {r : ℕ} {w y : ℝ} {e : CallErr ℝ} {ws ys : Fin r → ℝ}
    {es : Fin r → CallErr ℝ} (h0 : CallNear w y e) (hw : ∀ i, CallNear (ws i) (ys i) (es i)) :
    CallNear (op.roundedCall rd w (List.ofFn ws)) (op.eval y ys) (op.callErr δ e (List.ofFn es)) := by
  have hf : List.Forall₂ (fun w (z : ℝ × CallErr ℝ) => CallNear w z.1 z.2) (List.ofFn ws) (List.ofFn fun i => (ys i, es i)) := forall₂_ofFn _ _ _ hw
  have hy : (List.ofFn fun i => (ys i, es i)).map Prod.fst = List.ofFn ys := by simp [List.map_ofFn, Function.comp_def]
  have hs : (List.ofFn fun i => (ys i, es i)).map Prod.snd = List.ofFn es := by simp [List.map_ofFn, Function.comp_def]
  have sum := CallNear.fold (fun a b => a.plus hδ h b) hf h0
  rw [hy, hs, foldl_add, List.sum_ofFn] at sum
  cases op with
  | add => exact sum
  | average =>
    have := sum.over hδ h (c := r + 1) (by positivity)
    simpa only [NaryOp.roundedCall, NaryOp.eval, NaryOp.callErr, List.length_ofFn] using this
  | maximum =>
    have := CallNear.fold (f := max) (g := max) (c := CallErr.join) (fun a b => a.max b) hf h0
    rw [hy, hs, fold_ofFn, fold_ofFn] at this
    simpa only [NaryOp.roundedCall, NaryOp.eval, NaryOp.callErr, fold_ofFn] using this
  | minimum =>
    have := CallNear.fold (f := min) (g := min) (c := CallErr.join) (fun a b => a.min b) hf h0
    rw [hy, hs, fold_ofFn, fold_ofFn] at this
    simpa only [NaryOp.roundedCall, NaryOp.eval, NaryOp.callErr, fold_ofFn] using this
  | multiply => exact absurd rfl ho

theorem Step.call_near (hδ : 0 ≤ δ) (h : RelError rd δ) (bk : ℝ → ℝ → ℝ → ℝ → ℝ → ℝ)
    (hbk : ∀ g b m s x y, 0 ≤ x → x ≤ y → bk g b m s x ≤ bk g b m s y) (σ : ℝ) (hσ : 0 < σ) {a b : List ℕ} (l : Step a b) (hl : l.WF) (hsd : l.SdAbove σ)
    {w y : Idx a → ℝ} {e : Idx a → CallErr ℝ} (hw : ∀ k, CallNear (w k) (y k) (e k)) {v : Idx b → ℝ} (hv : l.RoundedCall rd bk w v) (k : Idx b) :
    CallNear (v k) (l.eval y k) (l.callErr (roundError δ bk) σ e k) := by
  cases l with
  | lay l => exact l.call_near hδ h bk hbk σ hσ hl hsd hw hv k
  | act g => exact hv.elim
  | pool win hw' =>
    rw [hv k]
    obtain ⟨j, hj, ej⟩ := Finset.exists_mem_eq_sup' (hw' k) w
    obtain ⟨i, hi, ei⟩ := Finset.exists_mem_eq_sup' (hw' k) y
    have w1 : w i ≤ (win k).sup' (hw' k) w := Finset.le_sup' w hi
    have y1 : y j ≤ (win k).sup' (hw' k) y := Finset.le_sup' y hj
    have s1 : (e j).size ≤ (win k).sup' (hw' k) fun j => (e j).size := Finset.le_sup' (fun j => (e j).size) hj
    have d1 : (e j).err ≤ (win k).sup' (hw' k) fun j => (e j).err := Finset.le_sup' (fun j => (e j).err) hj
    have d2 : (e i).err ≤ (win k).sup' (hw' k) fun j => (e j).err := Finset.le_sup' (fun j => (e j).err) hi
    have a1 := abs_le.1 (hw j).2
    have a2 := abs_le.1 (hw i).2
    refine ⟨by rw [ej]; exact (hw j).1.trans s1, ?_⟩
    simp only [Step.eval, Step.callErr]
    rw [abs_le]
    rw [ej] at w1 ⊢
    rw [ei] at y1 ⊢
    constructor <;> linarith

theorem KOp.call_near (hδ : 0 ≤ δ) (h : RelError rd δ) (bk : ℝ → ℝ → ℝ → ℝ → ℝ → ℝ)
    (hbk : ∀ g b m s x y, 0 ≤ x → x ≤ y → bk g b m s x ≤ bk g b m s y) (σ : ℝ) (hσ : 0 < σ) {X p : Idx [n] → ℝ} (hp : ∀ i, |p i| ≤ X i)
    {as : List (List ℕ)} {b : List ℕ} (o : KOp n as b) (ho : o.WF) (hl : o.PieceLinear) (hsd : o.SdAbove σ) (ws ys : HList (fun s => Idx s → ℝ) as)
    (es : HList (fun s => Idx s → CallErr ℝ) as) (hw : HAll3 (fun _ w y e => ∀ k, CallNear (w k) (y k) (e k)) ws ys es) (v : Idx b → ℝ)
    (hv : o.RoundedCall rd bk p ws v) (k : Idx b) : CallNear (v k) (o.eval p ys k) (o.callErr (roundError δ bk) δ σ X es k) := by
  cases o with
  | input => obtain rfl := hv; exact ⟨hp k, by simp [KOp.eval, KOp.callErr]⟩
  | layer l => cases hw with | cons h0 _ => exact l.call_near hδ h bk hbk σ hσ ho hsd h0 hv k
  | merge op a r => cases hw with | cons h0 ht => rw [hv k]; exact NaryOp.call_near hδ h hl (h0 k) fun i => ht.rep r _ _ _ i k
  | subtract a => cases hw with | cons h0 ht => cases ht with | cons h1 _ => rw [hv k]; exact (h0 k).minus hδ h (h1 k)
  | concat as j0 b pos => rw [hv k]; exact hw.get (pos k).1 (pos k).2
  | dot e0 e1 e => exact hv.elim

end

end Decomon
