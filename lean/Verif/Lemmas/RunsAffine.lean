import Verif.Lemmas.Slack
import Verif.Model.RunsAffine

/-! Lemmas about tensors computed with errors. -/

namespace Decomon

section
variable {X ι κ κ' α : Type} [Field α] [LinearOrder α] [IsStrictOrderedRing α] [Fintype ι]

theorem aff_off (w w' p : ι → α) (b b' t r : α) (ht : 0 ≤ t) (hr : ∑ i, |p i| ≤ r) (hw : ∀ i, |w' i - w i| ≤ t) (hb : |b' - b| ≤ t) :
    |affEval w' b' p - affEval w b p| ≤ t * (1 + r) := by
  have e : affEval w' b' p - affEval w b p = ∑ i, (w' i - w i) * p i + (b' - b) := by
    simp only [affEval, sub_mul, Finset.sum_sub_distrib]
    ring
  rw [e]
  have h1 : |∑ i, (w' i - w i) * p i| ≤ ∑ i, t * |p i| :=
    (Finset.abs_sum_le_sum_abs _ _).trans (Finset.sum_le_sum fun i _ => by
      rw [abs_mul]
      exact mul_le_mul_of_nonneg_right (hw i) (abs_nonneg _))
  rw [← Finset.mul_sum] at h1
  have h2 := mul_le_mul_of_nonneg_left hr ht
  have h3 := abs_add_le (∑ i, (w' i - w i) * p i) (b' - b)
  linarith

/-- Errors of the entries add to the slack. -/
theorem Near.off {m : Mode} {f g : Full X ι κ α} {p : ι → α} {y s t : κ → α} {r : α} (h : Near m f p y s) (hr : ∑ i, |p i| ≤ r) (ht : ∀ k, 0 ≤ t k)
    (o : f.Off m t g) : Near m g p y (fun k => s k + t k * (1 + r)) := by
  have r0 : 0 ≤ r := (Finset.sum_nonneg fun i _ => abs_nonneg _).trans hr
  refine ⟨fun hi k => ?_, fun ha k => ?_⟩
  · have h1 := h.const hi k
    have h2 := abs_le.1 (o.const hi k).1
    have h3 := abs_le.1 (o.const hi k).2
    have : t k ≤ t k * (1 + r) := le_mul_of_one_le_right (ht k) (by linarith)
    constructor <;> linarith
  · have h1 := h.aff ha k
    have h2 := abs_le.1 (aff_off _ _ p _ _ (t k) r (ht k) hr (fun i => (o.weight ha i k).1) (o.bias ha k).1)
    have h3 := abs_le.1 (aff_off _ _ p _ _ (t k) r (ht k) hr (fun i => (o.weight ha i k).2) (o.bias ha k).2)
    constructor <;> linarith

theorem near_reluFrom (D : PertDomain X ι α) (m : Mode) (eps : α) (he : 0 < eps) (sl : Slope) (gamma : κ → α)
    (hg : ∀ k, 0 ≤ gamma k ∧ gamma k ≤ 1) (f : Full X ι κ α) (S : Set (ι → α)) (hD : D.Sound f.x S) (p : ι → α) (hp : p ∈ S) (y s t : κ → α)
    (hs : ∀ k, 0 ≤ s k) (ht : ∀ k, 0 ≤ t k) (v : Near m f p y s) (u l u2 l2 : κ → α)
    (h : ∀ k, |u k - (f.tighten D m true true).uc k| ≤ t k ∧ |l k - (f.tighten D m true true).lc k| ≤ t k) :
    Near m (reluFrom m eps sl gamma u l u2 l2 f) p (fun k => relu (y k)) (fun k => 2 * s k + eps / 4 + t k) := by
  have hc : ∀ k, l k - (s k + t k) ≤ y k ∧ y k ≤ u k + (s k + t k) := fun k => by
    have h1 := near_tighten_const D m f S hD p hp y s v k
    have h2 := abs_le.1 (h k).1
    have h3 := abs_le.1 (h k).2
    constructor <;> linarith
  have hst : ∀ k, 0 ≤ s k + t k := fun k => add_nonneg (hs k) (ht k)
  refine ⟨fun hi k => ?_, fun ha k => ?_⟩
  · simp only [reluFrom, hi, if_true]
    have h1 := relu_near (hst k) (hc k).2
    have h2 := relu_near (y := l k) (u := y k) (hst k) (by linarith [(hc k).1])
    constructor <;> linarith [hs k]
  · simp only [reluFrom, ha, if_true]
    obtain ⟨⟨a1, a2⟩, -⟩ := hullRelu_unit (u k) (l k) sl he (hg k).1 (hg k).2
    obtain ⟨-, b1, b2⟩ := hullRelu_unit (u2 k) (l2 k) sl he (hg k).1 (hg k).2
    have w1 := hullRelu_upper_near sl he (hg k).1 (hg k).2 (hst k) (hc k).1 (hc k).2
    have w2 := hullRelu_lower_all (u := u2 k) (l := l2 k) sl he (hg k).1 (hg k).2 (y k)
    have z := v.aff ha k
    have e : ∀ (c b : α) (w : ι → α) (b0 : α), affEval (fun i => c * w i) (c * b0 + b) p = c * affEval w b0 p + b := fun c b w b0 => by
      simp only [affEval, mul_add, Finset.mul_sum]
      rw [add_assoc]
      congr 1
      exact Finset.sum_congr rfl fun i _ => by ring
    rw [e, e]
    have z1 := mul_le_mul_of_nonneg_left z.2 a1
    have z2 := mul_le_mul_of_nonneg_left z.1 b1
    have q1 := mul_le_mul_of_nonneg_right a2 (hs k)
    have q2 := mul_le_mul_of_nonneg_right b2 (hs k)
    have := hs k
    have := ht k
    constructor <;> linarith

theorem ReluComputes.near {D : PertDomain X ι α} {m : Mode} {eps : α} (he : 0 < eps) {sl : Slope} {gamma t : κ → α}
    (hg : ∀ k, 0 ≤ gamma k ∧ gamma k ≤ 1) {f g : Full X ι κ α} {S : Set (ι → α)} (hD : D.Sound f.x S) {p : ι → α} (hp : p ∈ S) {r : α}
    (hr : ∑ i, |p i| ≤ r) {y s : κ → α} (hs : ∀ k, 0 ≤ s k) (ht : ∀ k, 0 ≤ t k) (v : Near m f p y s) (h : ReluComputes D m eps sl gamma t f g) :
    Near m g p (fun k => relu (y k)) (fun k => 2 * s k + eps / 4 + t k * (2 + r)) := by
  obtain ⟨u, l, u2, l2, h1, -, h2⟩ := h
  refine ((near_reluFrom D m eps he sl gamma hg f S hD p hp y s t hs ht v u l u2 l2 h1).off hr ht h2).congr (fun _ => rfl) fun k => ?_
  ring

theorem Lay.spreadTol_eq [Fintype κ] (eps : α) (he : 0 < eps) (l : Lay α κ κ') (s : κ → α) (k : κ') :
    l.spreadTol eps s k = eps * l.gain (fun j => s j / eps) k := by
  have e : ∀ a b : α, eps * (a * (b / eps)) = a * b := fun a b => by field_simp
  cases l with
  | dense kernel bias => simp only [Lay.spreadTol, Lay.gain, Finset.mul_sum, e]
  | linear L kernel bias =>
    simp only [Lay.spreadTol, Lay.gain, Finset.mul_sum]
    refine Finset.sum_congr rfl fun t _ => ?_
    cases L.src k t with
    | none => simp
    | some q => rw [e]
  | relu gf gb =>
    simp only [Lay.spreadTol, Lay.gain]
    field_simp
  | batchNorm gamma beta mean sd => simp only [Lay.spreadTol, Lay.gain, e]
  | reshape e' => simp only [Lay.spreadTol, Lay.gain]; field_simp
  | skip => simp only [Lay.spreadTol, Lay.gain]; field_simp

theorem Lay.Computes.x [Fintype κ] {D : PertDomain X ι α} {m : Mode} {eps : α} {sl : Slope} {t : κ' → α} {l : Lay α κ κ'} {f : Full X ι κ α}
    {g : Full X ι κ' α} (h : l.Computes D m eps sl t f g) : g.x = f.x := by
  cases l with
  | relu gf gb => obtain ⟨u, l, u2, l2, -, -, h2⟩ := h; exact h2.x
  | _ => exact (Full.Off.x h).trans (Lay.forward_x ..)

theorem Lay.Computes.near [Fintype κ] {D : PertDomain X ι α} {m : Mode} {eps : α} (he : 0 < eps) {sl : Slope} {t : κ' → α} {l : Lay α κ κ'}
    (hl : l.WF) {f : Full X ι κ α} {g : Full X ι κ' α} {S : Set (ι → α)} (hD : D.Sound f.x S) {p : ι → α} (hp : p ∈ S) {r : α}
    (hr : ∑ i, |p i| ≤ r) {y s : κ → α} (hs : ∀ k, 0 ≤ s k) (ht : ∀ k, 0 ≤ t k) (v : Near m f p y s) (h : l.Computes D m eps sl t f g) :
    Near m g p (l.eval y) (fun k => l.spreadTol eps s k + t k * l.tolCost r) := by
  have v' : Near m f p y (fun k => eps * (s k / eps)) := v.congr (fun _ => rfl) fun k => by field_simp
  have key := l.forward_near D m eps he sl hl f S hD p hp y (fun k => s k / eps) (fun k => div_nonneg (hs k) he.le) v'
  have key' : Near m (l.forward D m eps sl f) p (l.eval y) (l.spreadTol eps s) := key.congr (fun _ => rfl) fun k => l.spreadTol_eq eps he s k
  cases l with
  | relu gf gb => exact ReluComputes.near he (fun k => (hl k).1) hD hp hr hs ht v h
  | dense => exact key'.off hr ht h
  | linear => exact key'.off hr ht h
  | batchNorm => exact key'.off hr ht h
  | reshape => exact key'.off hr ht h
  | skip => exact key'.off hr ht h

theorem MaxComputes.x {D : PertDomain X ι α} {m : Mode} {eps t : α} {f0 f1 g : Full X ι κ α} (h : MaxComputes D m eps t f0 f1 g) : g.x = f1.x := by
  obtain ⟨d, r, h1, ⟨u, l, u2, l2, -, -, h2⟩, h3⟩ := h
  have a : (addT D m r f0).x = r.x := by simp [addT]
  have b : (subtractT D m f1 f0).x = f1.x := by simp [subtractT, addT]
  rw [h3.x, a, h2.x]
  exact h1.x.trans b

theorem MaxComputes.near {D : PertDomain X ι α} {m : Mode} {eps t : α} (he : 0 < eps) (ht : 0 ≤ t) {f0 f1 g : Full X ι κ α} {S : Set (ι → α)}
    (h0 : D.Sound f0.x S) (h1 : D.Sound f1.x S) {p : ι → α} (hp : p ∈ S) {r : α} (hr : ∑ i, |p i| ≤ r) {y0 y1 s0 s1 : κ → α}
    (hs0 : ∀ k, 0 ≤ s0 k) (hs1 : ∀ k, 0 ≤ s1 k) (v0 : Near m f0 p y0 s0) (v1 : Near m f1 p y1 s1) (h : MaxComputes D m eps t f0 f1 g) :
    Near m g p (fun k => max (y0 k) (y1 k)) (fun k => 2 * (s0 k + s1 k) + s0 k + eps / 4 + t * (5 + 4 * r)) := by
  obtain ⟨d, q, a1, a2, a3⟩ := h
  have r0 : 0 ≤ r := (Finset.sum_nonneg fun i _ => abs_nonneg _).trans hr
  have hd : d.x = f1.x := a1.x.trans (by simp [subtractT, addT])
  have hq : q.x = d.x := by obtain ⟨u, l, u2, l2, -, -, h2⟩ := a2; exact h2.x
  have b1 := (near_subtract D m f1 f0 S h1 h0 p hp y1 y0 s1 s0 v1 v0).off hr (fun _ => ht) a1
  have b2 := ReluComputes.near he (fun _ => ⟨zero_le_one, le_rfl⟩) (by rw [hd]; exact h1) hp hr
    (fun k => add_nonneg (add_nonneg (hs1 k) (hs0 k)) (mul_nonneg ht (by linarith))) (fun _ => ht) b1 a2
  have b3 := (near_add D m q f0 S (by rw [hq, hd]; exact h1) h0 p hp _ _ _ _ b2 v0).off hr (fun _ => ht) a3
  refine b3.congr (fun k => ?_) fun k => ?_
  · rw [relu, max_comm, max_add]
    simp
  · ring

theorem MergeOp.Computes.x {D : PertDomain X ι α} {m : Mode} {eps t : α} {op : MergeOp} {f0 f1 g : Full X ι κ α} (hx : f0.x = f1.x)
    (h : op.Computes D m eps t f0 f1 g) : g.x = f0.x := by
  have e : ∀ f : Full X ι κ α, (minusT D m f).x = f.x := fun f => by simp [minusT]
  cases op with
  | maximum => exact (MaxComputes.x h).trans hx.symm
  | minimum =>
    obtain ⟨g', h1, rfl⟩ := h
    rw [e, h1.x, e, hx]
  | add => exact (Full.Off.x h).trans rfl
  | average => exact (Full.Off.x h).trans rfl
  | subtract => exact (Full.Off.x h).trans (by simp [MergeOp.forward, subtractT, addT])
  | multiply => exact (Full.Off.x h).trans (by simp [MergeOp.forward, multiplyLayerT, multiplyT])

theorem MergeOp.Computes.near {D : PertDomain X ι α} {m : Mode} {eps t : α} (he : 0 < eps) (ht : 0 ≤ t) {op : MergeOp} (ho : op ≠ .multiply)
    {f0 f1 g : Full X ι κ α} {S : Set (ι → α)} (h0 : D.Sound f0.x S) (h1 : D.Sound f1.x S) {p : ι → α} (hp : p ∈ S) {r : α}
    (hr : ∑ i, |p i| ≤ r) {y0 y1 s0 s1 : κ → α} (hs0 : ∀ k, 0 ≤ s0 k) (hs1 : ∀ k, 0 ≤ s1 k) (v0 : Near m f0 p y0 s0) (v1 : Near m f1 p y1 s1)
    (h : op.Computes D m eps t f0 f1 g) :
    Near m g p (fun k => op.eval (y0 k) (y1 k)) (fun k => op.spreadTol eps r t (s0 k) (s1 k)) := by
  have sc : ∀ s : κ → α, (fun k => eps * (s k / eps)) = s := fun s => funext fun k => by field_simp
  have key := op.forward_near D m eps he ho f0 f1 S h0 h1 p hp y0 y1 (fun k => s0 k / eps) (fun k => s1 k / eps)
    (fun k => div_nonneg (hs0 k) he.le) (fun k => div_nonneg (hs1 k) he.le) (by rwa [sc]) (by rwa [sc])
  have e : ∀ f : Full X ι κ α, (minusT D m f).x = f.x := fun f => by simp [minusT]
  cases op with
  | maximum => exact MaxComputes.near he ht h0 h1 hp hr hs0 hs1 v0 v1 h
  | minimum =>
    obtain ⟨g', h2, rfl⟩ := h
    have := near_minus D m g' p _ _ (MaxComputes.near he ht (by rw [e]; exact h0) (by rw [e]; exact h1) hp hr hs0 hs1
      (near_minus D m f0 p y0 _ v0) (near_minus D m f1 p y1 _ v1) h2)
    exact this.congr (fun k => by simp only [MergeOp.eval, max_neg_neg, neg_neg]) fun _ => rfl
  | add =>
    refine (key.off hr (fun _ => ht) h).congr (fun _ => rfl) fun k => ?_
    simp only [MergeOp.spreadTol, MergeOp.gain]; field_simp
  | average =>
    refine (key.off hr (fun _ => ht) h).congr (fun _ => rfl) fun k => ?_
    simp only [MergeOp.spreadTol, MergeOp.gain]; field_simp
  | subtract =>
    refine (key.off hr (fun _ => ht) h).congr (fun _ => rfl) fun k => ?_
    simp only [MergeOp.spreadTol, MergeOp.gain]; field_simp
  | multiply => exact absurd rfl ho

theorem Lay.spreadTol_nonneg [Fintype κ] {eps : α} (he : 0 < eps) (l : Lay α κ κ') (hl : l.WF) (s : κ → α) (hs : ∀ k, 0 ≤ s k) (k : κ') :
    0 ≤ l.spreadTol eps s k := by
  rw [l.spreadTol_eq eps he]
  exact mul_nonneg he.le (l.gain_nonneg hl _ (fun j => div_nonneg (hs j) he.le) k)

theorem Net.slackTol_nonneg {t : Tol α} (ht : t.Nonneg) {eps r : α} (he : 0 < eps) (hr : 0 ≤ r) {κ : Type} (n : Net α ι κ) (hn : n.WF) (k : κ) :
    0 ≤ n.slackTol t eps r k := by
  induction n with
  | input => exact le_rfl
  | layer n l ih =>
    refine add_nonneg (l.spreadTol_nonneg he hn.2 _ (ih hn.1) k) (mul_nonneg (ht.1 l k) ?_)
    cases l <;> simp only [Lay.tolCost] <;> linarith
  | merge op n0 n1 ih0 ih1 =>
    have a := ih0 hn.1 k
    have b := ih1 hn.2 k
    have c := ht.2 op
    cases op <;> simp only [Net.slackTol, MergeOp.spreadTol] <;> positivity

theorem Net.Computes.x {D : PertDomain X ι α} {m : Mode} {eps : α} {sl : Slope} {t : Tol α} {inp : Full X ι ι α} {κ : Type} {n : Net α ι κ}
    {g : Full X ι κ α} (h : n.Computes D m eps sl t inp g) : g.x = inp.x := by
  induction n with
  | input => rw [h]
  | layer n l ih =>
    obtain ⟨f, h1, h2⟩ := h
    exact h2.x.trans (ih h1)
  | merge op n0 n1 ih0 ih1 =>
    obtain ⟨f0, f1, h1, h2, h3⟩ := h
    exact (h3.x ((ih0 h1).trans (ih1 h2).symm)).trans (ih0 h1)

/-- The tensors computed with errors bound the network up to the slack. -/
theorem Net.Computes.near {D : PertDomain X ι α} {m : Mode} {eps : α} (he : 0 < eps) {sl : Slope} {t : Tol α} (ht : t.Nonneg) {inp : Full X ι ι α}
    {S : Set (ι → α)} (hD : D.Sound inp.x S) {p : ι → α} (hp : p ∈ S) {r : α} (hr : ∑ i, |p i| ≤ r) (hi : Valid m false inp p p) {κ : Type}
    {n : Net α ι κ} (hn : n.WF) (hm : n.NoMultiply) {g : Full X ι κ α} (h : n.Computes D m eps sl t inp g) :
    Near m g p (n.eval p) (n.slackTol t eps r) := by
  have r0 : 0 ≤ r := (Finset.sum_nonneg fun i _ => abs_nonneg _).trans hr
  induction n with
  | input => rw [h]; exact near_of_valid m inp p p hi
  | layer n l ih =>
    obtain ⟨f, h1, h2⟩ := h
    exact h2.near he hn.2 (by rw [h1.x]; exact hD) hp hr (n.slackTol_nonneg ht he r0 hn.1) (ht.1 l) (ih hn.1 hm h1)
  | merge op n0 n1 ih0 ih1 =>
    obtain ⟨f0, f1, h1, h2, h3⟩ := h
    exact h3.near he (ht.2 op) hm.1 (by rw [h1.x]; exact hD) (by rw [h2.x]; exact hD) hp hr (n0.slackTol_nonneg ht he r0 hn.1)
      (n1.slackTol_nonneg ht he r0 hn.2) (ih0 hn.1 hm.2.1 h1) (ih1 hn.2 hm.2.2 h2)

end

end Decomon
