import Verif.Lemmas.RunsBack
import Verif.Props.RunsAffine

/-!
C150: the bounds of the crown methods, and the certificates read off them, when every tensor of the backward pass is computed with an error.
-/

namespace Decomon

section
variable {X ι κ ν α : Type} [Fintype ι] [DecidableEq ι] [Field α] [LinearOrder α] [IsStrictOrderedRing α]

/-- C150: whatever tensors the backward pass returns within the tolerance, they bound the network up to the slack. -/
theorem C150_computed (c : CrownCfg X ι α) (he : 0 < c.eps) (t : α) (ht : 0 ≤ t) (S : Set (ι → α)) (hD : c.D.Sound c.inp.x S)
    (hst : c.m = .ibp → c.D.Sound (c.stack c.inp.lc c.inp.uc) S) (n : Net α ι κ) (hc : n.Chain) (hn : n.WF) (σ : α) (hσ : 0 < σ) (hsd : n.SdAbove σ)
    (out : Full X ι κ α) (h : c.ComputesModel t n out) (p : ι → α) (hp : p ∈ S) (hi : Valid c.m false c.inp p p) (r : α) (hr : ∑ i, |p i| ≤ r)
    (A : ι → α) (hA : ∀ i, |p i| ≤ A i) :
    Near c.m out p (n.eval p) (fun k => (n.crownSlack c.useForward t c.eps r σ A).1 k + t * (1 + r)) := by
  obtain ⟨b, h1, h2⟩ := h
  have e := (CrownCfg.Computes.near c he ht S hD hst p hp hi hr hσ hA n hc hn hsd).1 b h1
  exact (convert2BackwardMode_near c.D c.stack c.m c.inp S (fun _ => hD) hst p hp b _ _ e).off hr (fun _ => ht) h2

/-- C150: the same for the combinations `y · C` of the outputs, with `back_bounds = [C]`. -/
theorem C150_back_bounds [Fintype κ] (c : CrownCfg X ι α) (he : 0 < c.eps) (t : α) (ht : 0 ≤ t) (S : Set (ι → α)) (hD : c.D.Sound c.inp.x S)
    (hst : c.m = .ibp → c.D.Sound (c.stack c.inp.lc c.inp.uc) S) (n : Net α ι κ) (hc : n.Chain) (hn : n.WF) (σ : α) (hσ : 0 < σ) (hsd : n.SdAbove σ)
    (C : κ → ν → α) (out : Full X ι ν α) (h : c.ComputesBack t n C out) (p : ι → α) (hp : p ∈ S) (hi : Valid c.m false c.inp p p) (r : α)
    (hr : ∑ i, |p i| ≤ r) (A : ι → α) (hA : ∀ i, |p i| ≤ A i) :
    Near c.m out p (fun j => ∑ k, n.eval p k * C k j) (fun j => (n.crownSlack c.useForward t c.eps r σ A).2 (fun k => |C k j|) + t * (1 + r)) := by
  obtain ⟨b, h1, h2⟩ := h
  have e0 : (⟨C, fun _ => 0, C, fun _ => 0⟩ : Back κ ν α).Near (n.eval p) (fun j => ∑ k, n.eval p k * C k j) (fun _ => 0) := fun j => by
    have : affEval (fun i => C i j) 0 (n.eval p) = ∑ k, n.eval p k * C k j := by
      simp only [affEval, add_zero]
      exact Finset.sum_congr rfl fun k _ => mul_comm _ _
    simp [this]
  have e := (CrownCfg.Computes.near c he ht S hD hst p hp hi hr hσ hA n hc hn hsd).2 ν _ _ _ (fun k j => |C k j|) (fun _ _ => abs_nonneg _)
    (fun _ _ => ⟨le_rfl, le_rfl⟩) e0 b h1
  simp only [zero_add] at e
  exact (convert2BackwardMode_near c.D c.stack c.m c.inp S (fun _ => hD) hst p hp b _ _ e).off hr (fun _ => ht) h2

/-- The slack of a crown clone on a box. -/
def boxCrownSlack (uf : Bool) (t eps σ : α) (b : BoxOf ι α) (n : Net α ι κ) (k : κ) : α :=
  (n.crownSlack uf t eps (boxSize b) σ fun i => max |b.1 i| |b.2 i|).1 k + t * (1 + boxSize b)

/-- The same for `back_bounds = [C]`. -/
def boxBackSlack (uf : Bool) (t eps σ : α) (b : BoxOf ι α) (n : Net α ι κ) (C : κ → ν → α) (j : ν) : α :=
  (n.crownSlack uf t eps (boxSize b) σ fun i => max |b.1 i| |b.2 i|).2 (fun k => |C k j|) + t * (1 + boxSize b)

omit [Fintype ι] [DecidableEq ι] in
theorem box_abs_le (b : BoxOf ι α) (p : ι → α) (hp : p ∈ Box b.1 b.2) (i : ι) : |p i| ≤ max |b.1 i| |b.2 i| := by
  rcases le_total 0 (p i) with h | h
  · rw [abs_of_nonneg h]
    exact ((hp i).2.trans (le_abs_self _)).trans (le_max_right _ _)
  · rw [abs_of_nonpos h]
    exact ((neg_le_neg (hp i).1).trans (neg_le_abs _)).trans (le_max_left _ _)

/-- C150: `crown` (`uf = false`) and `crown-forward-*` (`uf = true`) on a box, in all modes. -/
theorem C150_box (m : Mode) (eps : α) (he : 0 < eps) (sl : Slope) (uf : Bool) (t : α) (ht : 0 ≤ t) (b : BoxOf ι α) (n : Net α ι κ) (hc : n.Chain)
    (hn : n.WF) (σ : α) (hσ : 0 < σ) (hsd : n.SdAbove σ) (out : Full ((ι → α) × (ι → α)) ι κ α)
    (h : (boxCrown m eps sl uf b.1 b.2).ComputesModel t n out) (p : ι → α) (hp : p ∈ Box b.1 b.2) :
    Near m out p (n.eval p) (boxCrownSlack uf t eps σ b n) := by
  have hr := boxSize_le b p hp
  unfold boxCrownSlack
  generalize boxSize b = r at hr ⊢
  exact C150_computed (boxCrown m eps sl uf b.1 b.2) he t ht (Box b.1 b.2) (boxDomain_sound b.1 b.2) (boxCrown_stack m eps sl uf b.1 b.2) n hc hn σ hσ hsd
    out h p hp (C27_input_box m b.1 b.2 p hp) r hr _ (box_abs_le b p hp)

/-- C150: the range that `get_range_box` reports on a crown clone, itself computed up to `e`, encloses the outputs that Keras computes up to `e'`, after
widening by the slack and the two errors. -/
theorem C150_range (m : Mode) (eps : α) (he : 0 < eps) (sl : Slope) (uf : Bool) (t : α) (ht : 0 ≤ t) (b : BoxOf ι α) (n : Net α ι κ) (hc : n.Chain)
    (hn : n.WF) (σ : α) (hσ : 0 < σ) (hsd : n.SdAbove σ) (out : Full ((ι → α) × (ι → α)) ι κ α)
    (h : (boxCrown m eps sl uf b.1 b.2).ComputesModel t n out) (U L : κ → α) (e : α) (hU : ∀ k, |U k - rangeUpper m b out k| ≤ e)
    (hL : ∀ k, |L k - rangeLower m b out k| ≤ e) (p : ι → α) (hp : p ∈ Box b.1 b.2) (v : κ → α) (e' : α) (hv : ∀ k, |v k - n.eval p k| ≤ e') (k : κ) :
    L k - (boxCrownSlack uf t eps σ b n k + e + e') ≤ v k ∧ v k ≤ U k + (boxCrownSlack uf t eps σ b n k + e + e') := by
  have a := near_range hp (C150_box m eps he sl uf t ht b n hc hn σ hσ hsd out h p hp) k
  have h1 := abs_le.1 (hU k)
  have h2 := abs_le.1 (hL k)
  have h3 := abs_le.1 (hv k)
  constructor <;> linarith

/-- C150: a class is certified against another by the ranges. -/
theorem C150_range_certificate (m : Mode) (eps : α) (he : 0 < eps) (sl : Slope) (uf : Bool) (t : α) (ht : 0 ≤ t) (b : BoxOf ι α) (n : Net α ι κ)
    (hc : n.Chain) (hn : n.WF) (σ : α) (hσ : 0 < σ) (hsd : n.SdAbove σ) (out : Full ((ι → α) × (ι → α)) ι κ α)
    (h : (boxCrown m eps sl uf b.1 b.2).ComputesModel t n out) (U L : κ → α) (e e' : α) (hU : ∀ k, |U k - rangeUpper m b out k| ≤ e)
    (hL : ∀ k, |L k - rangeLower m b out k| ≤ e) (c j : κ)
    (hm : U j + (boxCrownSlack uf t eps σ b n j + e + e') < L c - (boxCrownSlack uf t eps σ b n c + e + e')) (p : ι → α) (hp : p ∈ Box b.1 b.2)
    (v : κ → α) (hv : ∀ k, |v k - n.eval p k| ≤ e') : v j < v c := by
  have a := C150_range m eps he sl uf t ht b n hc hn σ hσ hsd out h U L e hU hL p hp v e' hv
  linarith [(a j).2, (a c).1]

/-- C150: a certificate with `back_bounds = [C]`: when the upper bound of a column of `y · C` is below minus the slack and the error of the Keras
outputs, the computed outputs satisfy it too. -/
theorem C150_back_certificate [Fintype κ] (m : Mode) (eps : α) (he : 0 < eps) (sl : Slope) (uf : Bool) (t : α) (ht : 0 ≤ t) (b : BoxOf ι α)
    (n : Net α ι κ) (hc : n.Chain) (hn : n.WF) (σ : α) (hσ : 0 < σ) (hsd : n.SdAbove σ) (C : κ → ν → α) (out : Full ((ι → α) × (ι → α)) ι ν α)
    (h : (boxCrown m eps sl uf b.1 b.2).ComputesBack t n C out) (U : ν → α) (e e' : α) (hU : ∀ j, |U j - rangeUpper m b out j| ≤ e) (j : ν)
    (hm : U j < -(boxBackSlack uf t eps σ b n C j + e + e' * ∑ k, |C k j|)) (p : ι → α) (hp : p ∈ Box b.1 b.2) (v : κ → α)
    (hv : ∀ k, |v k - n.eval p k| ≤ e') : ∑ k, v k * C k j < 0 := by
  have hr := boxSize_le b p hp
  have a : Near m out p (fun j => ∑ k, n.eval p k * C k j) (boxBackSlack uf t eps σ b n C) := by
    unfold boxBackSlack
    generalize boxSize b = r at hr ⊢
    exact C150_back_bounds (boxCrown m eps sl uf b.1 b.2) he t ht (Box b.1 b.2) (boxDomain_sound b.1 b.2) (boxCrown_stack m eps sl uf b.1 b.2) n hc hn σ hσ
      hsd C out h p hp (C27_input_box m b.1 b.2 p hp) r hr _ (box_abs_le b p hp)
  have a1 := (near_range hp a j).2
  have h1 := abs_le.1 (hU j)
  have h2 : (∑ k, v k * C k j) - ∑ k, n.eval p k * C k j ≤ e' * ∑ k, |C k j| := by
    rw [← Finset.sum_sub_distrib, Finset.mul_sum]
    refine Finset.sum_le_sum fun k _ => ?_
    rw [← sub_mul]
    refine (le_abs_self _).trans ?_
    rw [abs_mul]
    exact mul_le_mul_of_nonneg_right (hv k) (abs_nonneg _)
  linarith

omit [IsStrictOrderedRing α] in
theorem Back.Off.refl [IsStrictOrderedRing α] (t : α) (ht : 0 ≤ t) (b : Back κ ν α) : Back.Off t b b :=
  ⟨fun _ _ => by simp [ht], fun _ => by simp [ht]⟩

theorem Lay.BackComputes.exact {κ κ' : Type} [DecidableEq κ] (D : PertDomain X ι α) (m : Mode) (eps : α) (sl : Slope) (t : α) (ht : 0 ≤ t) (l : Lay α κ κ')
    (f : Full X ι κ α) : l.BackComputes D m eps sl t f (l.backward D m eps sl f) := by
  cases l with
  | relu gf gb =>
    exact ⟨(f.tighten D m true true).uc, (f.tighten D m true true).lc, (f.tighten D m true true).uc, (f.tighten D m true true).lc,
      fun k => by simp [ht], fun k => by simp [ht], Back.Off.refl t ht _⟩
  | _ => exact Back.Off.refl t ht _

theorem CrownCfg.Computes.exact (c : CrownCfg X ι α) (t : α) (ht : 0 ≤ t) {κ : Type} (n : Net α ι κ) :
    (∀ b, (c.node n).first = .ok b → (c.Computes t n).1 b) ∧ ∀ (ν : Type) b b', (c.node n).next ν b = .ok b' → (c.Computes t n).2 ν b b' := by
  induction n with
  | input =>
    constructor
    · intro b h
      cases h
      exact Back.Off.refl t ht _
    · intro ν b b' h
      cases h
      exact ⟨_, Back.Off.refl t ht _, Back.Off.refl t ht _⟩
  | layer n l ih =>
    have hch : ∀ f, c.childInput n (c.node n) = .ok f → (if c.useForward then n.Computes c.D c.m c.eps c.slope ⟨fun _ _ => t, fun _ => t⟩ c.inp f
        else ∃ b0, (c.Computes t n).1 b0 ∧ (convert2BackwardMode c.D c.stack c.m c.inp b0).Off c.m (fun _ => t) f) := by
      intro f h
      unfold CrownCfg.childInput at h
      cases hu : c.useForward with
      | true =>
        rw [hu] at h
        cases h
        exact C149_exact c.D c.m c.eps c.slope _ ⟨fun _ _ => ht, fun _ => ht⟩ c.inp n
      | false =>
        rw [hu, if_neg Bool.false_ne_true] at h
        rw [if_neg Bool.false_ne_true]
        cases hb : (c.node n).first with
        | error e => rw [hb] at h; cases h
        | ok b0 =>
          rw [hb] at h
          cases h
          exact ⟨b0, ih.1 b0 hb, Full.Off.refl _ _ (fun _ => ht) _⟩
    constructor
    · intro b h
      simp only [CrownCfg.node] at h
      cases hf : c.childInput n (c.node n) with
      | error e => rw [hf] at h; cases h
      | ok f =>
        rw [hf] at h
        exact ⟨_, ⟨f, hch f hf, Lay.BackComputes.exact c.D c.m c.eps c.slope t ht l f⟩, ih.2 _ _ _ h⟩
    · intro ν b b' h
      simp only [CrownCfg.node] at h
      cases hf : c.childInput n (c.node n) with
      | error e => rw [hf] at h; cases h
      | ok f =>
        rw [hf] at h
        exact ⟨_, _, ⟨f, hch f hf, Lay.BackComputes.exact c.D c.m c.eps c.slope t ht l f⟩, Back.Off.refl t ht _, ih.2 _ _ _ h⟩
  | merge op n0 n1 _ _ =>
    constructor
    · intro b h
      simp only [CrownCfg.node] at h
      cases h0 : c.childInput n0 (c.node n0) <;> cases h1 : c.childInput n1 (c.node n1) <;> rw [h0, h1] at h <;> cases h
    · intro ν b b' h
      simp only [CrownCfg.node] at h
      cases h0 : c.childInput n0 (c.node n0) <;> cases h1 : c.childInput n1 (c.node n1) <;> rw [h0, h1] at h <;> cases h

/-- C150: the exact tensors are among those that the backward pass may return. -/
theorem C150_exact (c : CrownCfg X ι α) (t : α) (ht : 0 ≤ t) (n : Net α ι κ) (out : Full X ι κ α) (h : c.model n = .ok out) : c.ComputesModel t n out := by
  unfold CrownCfg.model at h
  cases hb : (c.node n).first with
  | error e => rw [hb] at h; cases h
  | ok b =>
    rw [hb] at h
    cases h
    exact ⟨b, (CrownCfg.Computes.exact c t ht n).1 b hb, Full.Off.refl _ _ (fun _ => ht) _⟩

/-- C150: the same with `back_bounds`. -/
theorem C150_exact_back (c : CrownCfg X ι α) (t : α) (ht : 0 ≤ t) (n : Net α ι κ) (C : κ → ν → α) (out : Full X ι ν α)
    (h : c.modelBack n C = .ok out) : c.ComputesBack t n C out := by
  unfold CrownCfg.modelBack at h
  cases hb : (c.node n).next ν ⟨C, fun _ => 0, C, fun _ => 0⟩ with
  | error e => rw [hb] at h; cases h
  | ok b =>
    rw [hb] at h
    cases h
    exact ⟨b, (CrownCfg.Computes.exact c t ht n).2 ν _ b hb, Full.Off.refl _ _ (fun _ => ht) _⟩

omit [DecidableEq ι] in
/-- C150: without tolerance the slack is the one of C105. -/
theorem C150_zero (uf : Bool) (eps : α) (he : 0 < eps) (r σ : α) (A : ι → α) (n : Net α ι κ) (hc : n.Chain) :
    (∀ k, (n.crownSlack uf 0 eps r σ A).1 k = eps * n.gain k) ∧
      ∀ [Fintype κ] (B : κ → α), (n.crownSlack uf 0 eps r σ A).2 B = eps * ∑ k, B k * n.gain k := by
  induction n with
  | input => exact ⟨fun k => by simp [Net.crownSlack, Net.gain], fun B => by simp [Net.crownSlack, Net.gain]⟩
  | merge op n0 n1 _ _ => exact absurd hc (by simp [Net.Chain])
  | @layer κ₁ κ₂ _ _ i3 n l ih =>
    obtain ⟨h1, h2⟩ := ih hc
    have hch : (fun k => if uf then n.slackTol ⟨fun _ _ => 0, fun _ => 0⟩ eps r k else (n.crownSlack uf 0 eps r σ A).1 k + 0 * (1 + r)) =
        fun k => eps * n.gain k := funext fun k => by
      rw [C149_zero eps he, h1]
      simp
    have hown : ∀ k, l.ownTol eps 0 (fun k => eps * n.gain k) k = eps * l.ownErr n.gain k := fun k => by
      cases l <;> simp only [Lay.ownTol, Lay.ownErr] <;> ring
    constructor
    · intro k
      simp only [Net.crownSlack]
      rw [hch]
      simp only [hown, h2, l.absWeight_eq, zero_mul, add_zero, ← mul_add, l.gain_split]
      rfl
    · intro inst B
      obtain rfl : i3 = inst := Subsingleton.elim _ _
      simp only [Net.crownSlack]
      rw [hch]
      simp only [hown, h2, l.absWeight_eq, zero_mul, add_zero]
      have e : ∑ i, (∑ q, l.absW i q * B q) * n.gain i = ∑ q, B q * ∑ i, l.absW i q * n.gain i := by
        simp only [Finset.sum_mul, Finset.mul_sum]
        rw [Finset.sum_comm]
        exact Finset.sum_congr rfl fun q _ => Finset.sum_congr rfl fun i _ => by ring
      have e2 : ∑ k, B k * (eps * l.ownErr n.gain k) = eps * ∑ k, B k * l.ownErr n.gain k := by
        rw [Finset.mul_sum]; exact Finset.sum_congr rfl fun k _ => by ring
      rw [e, e2, ← mul_add, ← Finset.sum_add_distrib]
      simp only [← mul_add, l.gain_split]
      rfl

end

/-- `1 - relu(2 x + 1)`. -/
def hatNet : Net ℚ (Fin 1) (Fin 1) :=
  .layer (κ := Fin 1) (.layer (κ := Fin 1) (.layer .input (.dense (fun _ _ => 2) fun _ => 1)) (.relu (fun _ => 1) fun _ => 1)) (.dense (fun _ _ => -1) fun _ => 1)

/-- C150 on `1 - relu(2 x + 1)` on `[-1, 1]`, with and without a forward pass, in every mode: with an error of `1e-6` in every entry of every tensor the
bounds hold up to `4e-5`. -/
example (m : Mode) (sl : Slope) (uf : Bool) (out : Full ((Fin 1 → ℚ) × (Fin 1 → ℚ)) (Fin 1) (Fin 1) ℚ)
    (h : (boxCrown m (1 / 10000000) sl uf (fun _ => -1) fun _ => 1).ComputesModel (1 / 1000000) hatNet out) (x : ℚ) (hx : -1 ≤ x ∧ x ≤ 1) :
    rangeLower m (fun _ => -1, fun _ => 1) out 0 - 4 / 100000 ≤ 1 - max (2 * x + 1) 0 ∧
      1 - max (2 * x + 1) 0 ≤ rangeUpper m (fun _ => -1, fun _ => 1) out 0 + 4 / 100000 := by
  have a := near_range (b := (fun _ => -1, fun _ => 1)) (p := fun _ => x) (fun _ => hx)
    (C150_box m (1 / 10000000) (by norm_num) sl uf (1 / 1000000) (by norm_num) (fun _ => -1, fun _ => 1) hatNet (by simp [hatNet, Net.Chain])
      (by simp [hatNet, Net.WF, Lay.WF]) 1 one_pos (by simp [hatNet, Net.SdAbove, Lay.SdAbove]) out h _ (fun _ => hx)) 0
  have e : boxCrownSlack uf (1 / 1000000) (1 / 10000000) 1 (fun _ => -1, fun _ => 1) hatNet 0 ≤ 4 / 100000 := by
    clear a h
    revert uf
    decide +kernel
  have ev : hatNet.eval (fun _ => x) 0 = 1 - max (2 * x + 1) 0 := by
    simp [hatNet, Net.eval, Lay.eval]
    ring
  rw [ev] at a
  constructor <;> linarith [a.1, a.2]

/-- C150: such tensors exist: the exact ones. -/
example : ∃ out, (boxCrown .hybrid (1 / 10000000) .vSlope false (fun _ : Fin 1 => (-1 : ℚ)) fun _ => 1).ComputesModel (1 / 1000000) hatNet out := by
  obtain ⟨out, h, -⟩ := C105_box .hybrid (1 / 10000000 : ℚ) (by norm_num) .vSlope false (fun _ : Fin 1 => -1) (fun _ => 1) hatNet (by simp [hatNet, Net.Chain])
    (by simp [hatNet, Net.WF, Lay.WF]) (fun _ => 0) (fun _ => by norm_num)
  exact ⟨out, C150_exact _ _ (by norm_num) _ out h⟩

end Decomon
