import Verif.Model.FloatBack
import Verif.Lemmas.FloatAffine
import Verif.Lemmas.RunsBack

/-! Lemmas about the method crown in rounded arithmetic. -/

namespace Decomon

section
variable {ι κ κ' ν α : Type} [Field α] [LinearOrder α] [IsStrictOrderedRing α] {rd : α → α} {δ : α}

theorem Back.sizeB_nonneg [Fintype κ] {Y : κ → α} (hY : ∀ k, 0 ≤ Y k) (b : Back κ ν α) (n : ν) : 0 ≤ b.sizeB Y n :=
  add_nonneg (Finset.sum_nonneg fun k _ => mul_nonneg ((abs_nonneg _).trans (le_max_left _ _)) (hY k)) ((abs_nonneg _).trans (le_max_left _ _))

theorem aff_abs [Fintype κ] {w y Y : κ → α} {b : α} (hy : ∀ k, |y k| ≤ Y k) : |affEval w b y| ≤ (∑ k, |w k| * Y k) + |b| := by
  refine (abs_add_le _ _).trans (add_le_add ((Finset.abs_sum_le_sum_abs _ _).trans (Finset.sum_le_sum fun k _ => ?_)) le_rfl)
  rw [abs_mul]
  exact mul_le_mul_of_nonneg_left (hy k) (abs_nonneg _)

theorem sizeB_up [Fintype κ] {Y : κ → α} (hY : ∀ k, 0 ≤ Y k) (b : Back κ ν α) (n : ν) :
    (∑ k, |b.wu k n| * Y k) + |b.bu n| ≤ b.sizeB Y n ∧ (∑ k, |b.wl k n| * Y k) + |b.bl n| ≤ b.sizeB Y n :=
  ⟨add_le_add (Finset.sum_le_sum fun k _ => mul_le_mul_of_nonneg_right (le_max_left _ _) (hY k)) (le_max_left _ _),
    add_le_add (Finset.sum_le_sum fun k _ => mul_le_mul_of_nonneg_right (le_max_right _ _) (hY k)) (le_max_right _ _)⟩

/-- Values between two lines are not larger than the lines. -/
theorem Back.Holds.abs_le [Fintype κ] {b : Back κ ν α} {y Y : κ → α} {z : ν → α} (h : b.Holds y z) (hy : ∀ k, |y k| ≤ Y k) (n : ν) : |z n| ≤ b.sizeB Y n := by
  have hY : ∀ k, 0 ≤ Y k := fun k => (abs_nonneg _).trans (hy k)
  have e1 := _root_.abs_le.1 ((aff_abs (w := fun k => b.wu k n) (b := b.bu n) hy).trans (sizeB_up hY b n).1)
  have e2 := _root_.abs_le.1 ((aff_abs (w := fun k => b.wl k n) (b := b.bl n) hy).trans (sizeB_up hY b n).2)
  have h1 := h n
  simp only [affEval] at e1 e2 h1
  rw [_root_.abs_le]
  constructor <;> linarith [h1.1, h1.2]

/-- Tensors that are close: the weights, the size and the error. -/
theorem back_close [Fintype κ] {f g : Back κ ν α} {y Y : κ → α} {z s M : ν → α} (hY : ∀ k, 0 ≤ Y k) (v : f.Near y z s) (hy : ∀ k, |y k| ≤ Y k)
    (G : α) (hG : 1 ≤ G) (S : κ → ν → α) (B : ν → α)
    (hw : ∀ i k, (|g.wu i k - f.wu i k| ≤ (G - 1) * S i k ∧ |f.wu i k| ≤ S i k) ∧ |g.wl i k - f.wl i k| ≤ (G - 1) * S i k ∧ |f.wl i k| ≤ S i k)
    (hb : ∀ k, (|g.bu k - f.bu k| ≤ (G - 1) * B k ∧ |f.bu k| ≤ B k) ∧ |g.bl k - f.bl k| ≤ (G - 1) * B k ∧ |f.bl k| ≤ B k)
    (hM : ∀ k, (∑ i, S i k * Y i) + B k ≤ M k) :
    g.Bnd (fun i k => G * S i k) ∧ (∀ k, g.sizeB Y k ≤ G * M k) ∧ g.Near y z (fun k => s k + (G - 1) * M k) := by
  have e : ∀ (c : α) k, (∑ i, c * S i k * Y i) + c * B k = c * ((∑ i, S i k * Y i) + B k) := fun c k => by
    rw [mul_add, Finset.mul_sum]
    congr 1
    exact Finset.sum_congr rfl fun i _ => mul_assoc _ _ _
  have G0 : 0 ≤ G := by linarith
  have aw : ∀ i k, |g.wu i k| ≤ G * S i k ∧ |g.wl i k| ≤ G * S i k := fun i k => ⟨abs_of_close (hw i k).1.1 (hw i k).1.2, abs_of_close (hw i k).2.1 (hw i k).2.2⟩
  have ab : ∀ k, |g.bu k| ≤ G * B k ∧ |g.bl k| ≤ G * B k := fun k => ⟨abs_of_close (hb k).1.1 (hb k).1.2, abs_of_close (hb k).2.1 (hb k).2.2⟩
  refine ⟨aw, fun k => ?_, fun k => ?_⟩
  · refine le_trans ?_ (mul_le_mul_of_nonneg_left (hM k) G0)
    rw [← e]
    exact add_le_add (Finset.sum_le_sum fun i _ => mul_le_mul_of_nonneg_right (max_le (aw i k).1 (aw i k).2) (hY i)) (max_le (ab k).1 (ab k).2)
  · have x1 := abs_le.1 (aff_close (fun i => f.wu i k) (fun i => g.wu i k) y Y (fun i => (G - 1) * S i k) (f.bu k) (g.bu k) _ hy (fun i => (hw i k).1.1) (hb k).1.1)
    have x2 := abs_le.1 (aff_close (fun i => f.wl i k) (fun i => g.wl i k) y Y (fun i => (G - 1) * S i k) (f.bl k) (g.bl k) _ hy (fun i => (hw i k).2.1) (hb k).2.1)
    rw [e] at x1 x2
    have m := mul_le_mul_of_nonneg_left (hM k) (show 0 ≤ G - 1 by linarith)
    have := v k
    constructor <;> linarith [x1.1, x1.2, x2.1, x2.2, this.1, this.2]

/-- One merge: the weights, the size and the error. -/
theorem MergeRounded.near [Fintype ι] [Fintype κ] (hδ : 0 ≤ δ) (h : RelError rd δ) {prev : Back ι κ α} {b : Back κ ν α} {g : Back ι ν α}
    (hg : MergeRounded rd prev b g) {x Z : ι → α} {y Y : κ → α} {z : ν → α} {s : κ → α} {sb M : ν → α} {A : ι → κ → α} {B : κ → ν → α}
    (hx : ∀ i, |x i| ≤ Z i) (hs : ∀ k, 0 ≤ s k) (hA : prev.Bnd A) (hB : b.Bnd B) (h1 : prev.Near x y s) (h2 : b.Near y z sb)
    (hY : ∀ k, prev.sizeB Z k ≤ Y k) (hM : ∀ n, b.sizeB Y n ≤ M n) :
    g.Bnd (fun i n => (1 + δ) ^ (Fintype.card κ + 2) * ∑ k, A i k * B k n) ∧ (∀ n, g.sizeB Z n ≤ (1 + δ) ^ (Fintype.card κ + 2) * M n) ∧
      g.Near x z (fun n => (∑ k, B k n * s k) + sb n + ((1 + δ) ^ (Fintype.card κ + 2) - 1) * M n) := by
  have hZ : ∀ i, 0 ≤ Z i := fun i => (abs_nonneg _).trans (hx i)
  have g0 : 0 ≤ (1 + δ) ^ (Fintype.card κ + 2) - 1 := gamma_nonneg hδ _
  have g1 := one_le_gamma hδ (Fintype.card κ + 2)
  -- weights
  have W : ∀ (p q c : κ → α) (v a d : α), IsSum rd (fun k => p k * max (c k) 0) a → IsSum rd (fun k => q k * min (c k) 0) d → v = rd (a + d) → ∀ C D : κ → α,
      (∀ k, |p k| ≤ C k ∧ |q k| ≤ C k) → (∀ k, |c k| ≤ D k) →
      |v - ((∑ k, p k * max (c k) 0) + ∑ k, q k * min (c k) 0)| ≤ ((1 + δ) ^ (Fintype.card κ + 2) - 1) * ∑ k, C k * D k ∧
        |(∑ k, p k * max (c k) 0) + ∑ k, q k * min (c k) 0| ≤ ∑ k, C k * D k := by
    intro p q c v a d ha hd hv C D hC hD
    have le : ∑ k, |c k| * C k ≤ ∑ k, C k * D k := Finset.sum_le_sum fun k _ => by
      rw [mul_comm]; exact mul_le_mul_of_nonneg_left (hD k) ((abs_nonneg _).trans (hC k).1)
    simp only [max_comm _ (0 : α), min_comm _ (0 : α)] at ha hd ⊢
    rw [hv]
    exact ⟨(split_error' hδ h p q c C (fun k => (hC k).1) (fun k => (hC k).2) a d ha hd).trans (mul_le_mul_of_nonneg_left le g0),
      (split_size p q c C (fun k => (hC k).1) fun k => (hC k).2).trans le⟩
  have V : ∀ (p q c : κ → α) (e v a d : α), IsSum rd (fun k => p k * max (c k) 0) a → IsSum rd (fun k => q k * min (c k) 0) d → v = rd (rd (a + d) + e) →
      ∀ (C D : κ → α) (E : α), (∀ k, |p k| ≤ C k ∧ |q k| ≤ C k) → (∀ k, |c k| ≤ D k) → |e| ≤ E →
      |v - ((∑ k, p k * max (c k) 0) + (∑ k, q k * min (c k) 0) + e)| ≤ ((1 + δ) ^ (Fintype.card κ + 2) - 1) * ((∑ k, C k * D k) + E) ∧
        |(∑ k, p k * max (c k) 0) + (∑ k, q k * min (c k) 0) + e| ≤ (∑ k, C k * D k) + E := by
    intro p q c e v a d ha hd hv C D E hC hD hE
    have le : ∑ k, |c k| * C k ≤ ∑ k, C k * D k := Finset.sum_le_sum fun k _ => by
      rw [mul_comm]; exact mul_le_mul_of_nonneg_left (hD k) ((abs_nonneg _).trans (hC k).1)
    simp only [max_comm _ (0 : α), min_comm _ (0 : α)] at ha hd ⊢
    rw [hv]
    exact ⟨(split_error hδ h p q c C (fun k => (hC k).1) (fun k => (hC k).2) e a d ha hd).trans (mul_le_mul_of_nonneg_left (add_le_add le hE) g0),
      (abs_add_le _ _).trans (add_le_add ((split_size p q c C (fun k => (hC k).1) fun k => (hC k).2).trans le) hE)⟩
  refine ⟨fun i n => ?_, ?_⟩
  · obtain ⟨a, d, q1, q2, q3⟩ := hg.wu i n
    obtain ⟨a', d', r1, r2, r3⟩ := hg.wl i n
    have u1 := W _ _ _ _ a d q1 q2 q3 (fun k => A i k) (fun k => B k n) (fun k => ⟨(hA i k).1, (hA i k).2⟩) fun k => (hB k n).1
    have u2 := W _ _ _ _ a' d' r1 r2 r3 (fun k => A i k) (fun k => B k n) (fun k => ⟨(hA i k).2, (hA i k).1⟩) fun k => (hB k n).2
    exact ⟨abs_of_close u1.1 u1.2, abs_of_close u2.1 u2.2⟩
  have fin := back_close (g := g) (M := M) hZ (near_merge prev b x y z s sb B hs hB h1 h2) hx ((1 + δ) ^ (Fintype.card κ + 2)) g1
    (fun i n => ∑ k, max |prev.wu i k| |prev.wl i k| * max |b.wu k n| |b.wl k n|)
    (fun n => (∑ k, max |prev.bu k| |prev.bl k| * max |b.wu k n| |b.wl k n|) + max |b.bu n| |b.bl n|) (fun i n => ?_) (fun n => ?_) fun n => ?_
  · exact fin.2
  · obtain ⟨a, d, q1, q2, q3⟩ := hg.wu i n
    obtain ⟨a', d', r1, r2, r3⟩ := hg.wl i n
    exact ⟨W _ _ _ _ a d q1 q2 q3 _ _ (fun k => ⟨le_max_left _ _, le_max_right _ _⟩) fun k => le_max_left _ _,
      W _ _ _ _ a' d' r1 r2 r3 _ _ (fun k => ⟨le_max_right _ _, le_max_left _ _⟩) fun k => le_max_right _ _⟩
  · obtain ⟨a, d, q1, q2, q3⟩ := hg.bu n
    obtain ⟨a', d', r1, r2, r3⟩ := hg.bl n
    exact ⟨V _ _ _ _ _ a d q1 q2 q3 _ _ _ (fun k => ⟨le_max_left _ _, le_max_right _ _⟩) (fun k => le_max_left _ _) (le_max_left _ _),
      V _ _ _ _ _ a' d' r1 r2 r3 _ _ _ (fun k => ⟨le_max_right _ _, le_max_left _ _⟩) (fun k => le_max_right _ _) (le_max_right _ _)⟩
  · refine le_trans ?_ (hM n)
    have : (∑ i, (∑ k, max |prev.wu i k| |prev.wl i k| * max |b.wu k n| |b.wl k n|) * Z i) +
        ((∑ k, max |prev.bu k| |prev.bl k| * max |b.wu k n| |b.wl k n|) + max |b.bu n| |b.bl n|) =
        (∑ k, max |b.wu k n| |b.wl k n| * prev.sizeB Z k) + max |b.bu n| |b.bl n| := by
      simp only [Back.sizeB, mul_add, Finset.sum_add_distrib, Finset.mul_sum, Finset.sum_mul]
      rw [Finset.sum_comm, add_assoc]
      congr 1
      · exact Finset.sum_congr rfl fun k _ => Finset.sum_congr rfl fun i _ => by ring
      · congr 1
        exact Finset.sum_congr rfl fun k _ => by ring
    rw [this]
    exact add_le_add (Finset.sum_le_sum fun k _ => mul_le_mul_of_nonneg_left (hY k) ((abs_nonneg _).trans (le_max_left _ _))) le_rfl

/-- The error of the lines of ReLU with the computed hull. -/
theorem float_hull (hδ : 0 ≤ δ) (hδ1 : δ < 1) (h : RelError rd δ) {eps : α} (he : 0 < eps) (sl : Slope) {u lo y Y L s : α} (hy : |y| ≤ Y) (hL : |lo| ≤ L)
    (hs : 0 ≤ s) (c1 : lo - s ≤ y) (c2 : y ≤ u + s) :
    (|(roundedHullRelu rd eps sl u lo).wu| ≤ (1 + δ) ^ 2 / (1 - δ) ∧ |(roundedHullRelu rd eps sl u lo).wl| ≤ (1 + δ) ^ 2 / (1 - δ)) ∧
    (|(roundedHullRelu rd eps sl u lo).bu| ≤ (1 + δ) ^ 4 / (1 - δ) * L ∧ |(roundedHullRelu rd eps sl u lo).bl| ≤ (1 + δ) ^ 4 / (1 - δ) * L) ∧
    (roundedHullRelu rd eps sl u lo).wl * y + (roundedHullRelu rd eps sl u lo).bl -
      (s + eps / 4 + ((1 + δ) ^ 2 / (1 - δ) - 1) * Y + ((1 + δ) ^ 4 / (1 - δ) - 1) * L) ≤ relu y ∧
    relu y ≤ (roundedHullRelu rd eps sl u lo).wu * y + (roundedHullRelu rd eps sl u lo).bu +
      (s + eps / 4 + ((1 + δ) ^ 2 / (1 - δ) - 1) * Y + ((1 + δ) ^ 4 / (1 - δ) - 1) * L) := by
  obtain ⟨h1, h2, h3, ⟨c, k0, k1, h4⟩, h5⟩ := hull_close hδ hδ1 h he sl u lo
  obtain ⟨⟨a1, a2⟩, -⟩ := hullRelu_unit (eps := eps) (g := 1) u lo sl he zero_le_one le_rfl
  have q2 : 0 ≤ (1 + δ) ^ 2 / (1 - δ) - 1 := sub_nonneg.2 (one_le_quot hδ hδ1 2)
  have q4 : 0 ≤ (1 + δ) ^ 4 / (1 - δ) - 1 := sub_nonneg.2 (one_le_quot hδ hδ1 4)
  have L0 : 0 ≤ L := (abs_nonneg _).trans hL
  have w1 := abs_of_close h1 (by rwa [abs_of_nonneg a1])
  have w2 := abs_of_close h4 (by rwa [abs_of_nonneg k0])
  have b1 := abs_of_close (h2.trans (mul_le_mul_of_nonneg_left hL q4)) (h3.trans hL)
  have m1 := abs_le.1 (mul_close h1 (by simpa using q2) hy)
  have m2 := abs_le.1 (mul_close h4 (by simpa using q2) hy)
  have m3 := abs_le.1 (h2.trans (mul_le_mul_of_nonneg_left hL q4))
  have up := hullRelu_upper_near sl he (zero_le_one (α := α)) le_rfl hs c1 c2
  have r1 : c * y ≤ relu y := by
    rcases le_total 0 y with hy | hy
    · rw [relu_of_nonneg hy]; nlinarith
    · rw [relu_of_nonpos hy]; nlinarith
  have t4 : 0 ≤ ((1 + δ) ^ 4 / (1 - δ) - 1) * L := mul_nonneg q4 L0
  rw [mul_one] at w1 w2
  refine ⟨⟨w1, w2⟩, ⟨b1, ?_⟩, ?_, ?_⟩
  · rw [h5, abs_zero]; exact mul_nonneg (by linarith) L0
  · rw [h5]; linarith [m2.1, m2.2]
  · linarith [m1.1, m1.2, m3.1, m3.2]

/-- One backward layer: the weights, the size, the error and the size of the values. -/
theorem Lay.RoundedBack.near [Fintype κ] [DecidableEq κ] (hδ : 0 ≤ δ) (hδ1 : δ < 1) (h : RelError rd δ) {eps : α} (he : 0 < eps) {sl : Slope} {bn : α}
    (hbn : 0 ≤ bn) {l : Lay α κ κ'} (hl : l.WF) {u lo y Y L s : κ → α} (hy : ∀ k, |y k| ≤ Y k) (hL : ∀ k, |lo k| ≤ L k) (hs : ∀ k, 0 ≤ s k)
    (hc : ∀ k, lo k - s k ≤ y k ∧ y k ≤ u k + s k) {b : Back κ κ' α} (hb : l.RoundedBack rd eps sl bn u lo b) :
    b.Bnd (l.weightFloat δ bn) ∧ (∀ k, b.sizeB Y k ≤ l.sizeFloat δ bn Y L k) ∧ b.Near y (l.eval y) (l.ownFloat δ eps bn Y L s) ∧
      ∀ k, |l.eval y k| ≤ l.sizeFloat δ bn Y L k := by
  have hY : ∀ k, 0 ≤ Y k := fun k => (abs_nonneg _).trans (hy k)
  have zero : ∀ {b0 : Back κ κ' α}, b0.Holds y (l.eval y) → b0.Near y (l.eval y) (fun _ => 0) := fun h k => by simpa using h k
  have bnd := l.backward_bnd (boxDomain (ι := Empty)) .ibp eps he sl hl
    ⟨(Empty.elim, Empty.elim), fun _ => 0, Empty.elim, fun _ => 0, fun _ => 0, Empty.elim, fun _ => 0, fun _ => 0, fun _ => 0⟩
  rw [← l.absWeight_eq] at bnd
  have diag : ∀ (v w : κ → α) (k : κ), ∑ i, max |diagLike v i k| |diagLike w i k| * Y i = max |v k| |w k| * Y k := fun v w k => by
    have : ∀ i, max |diagLike v i k| |diagLike w i k| * Y i = if i = k then max |v k| |w k| * Y k else 0 := fun i => by
      simp only [diagLike]
      split
      · rename_i e; rw [e]
      · simp
    simp [this]
  cases l with
  | dense kernel bias =>
    obtain rfl := hb
    have H := holds_dense kernel bias y
    have sz : ∀ k, (backwardDense kernel bias).sizeB Y k ≤ Lay.sizeFloat δ bn (.dense kernel bias) Y L k := fun k => by
      simp only [Back.sizeB, backwardDense, Lay.sizeFloat, max_self]; exact le_rfl
    exact ⟨bnd, sz, zero H, fun k => (H.abs_le hy k).trans (sz k)⟩
  | linear J kernel bias =>
    obtain rfl := hb
    have H := holds_conv J kernel bias y
    have sz : ∀ k, (backwardConv J kernel bias).sizeB Y k ≤ Lay.sizeFloat δ bn (.linear J kernel bias) Y L k := fun k => by
      simp only [Back.sizeB, Lay.sizeFloat]
      refine add_le_add (Finset.sum_le_sum fun i _ => mul_le_mul_of_nonneg_right (max_le (bnd i k).1 (bnd i k).2) (hY i)) ?_
      simp only [backwardConv, max_self]
      exact le_rfl
    exact ⟨bnd, sz, zero H, fun k => (H.abs_le hy k).trans (sz k)⟩
  | reshape e =>
    obtain rfl := hb
    have H := holds_reindex e y
    have sz : ∀ k, (backwardReindex e).sizeB Y k ≤ Lay.sizeFloat δ bn (.reshape e) Y L k := fun k => by
      have : ∀ i, |if i = e k then (1 : α) else 0| * Y i = if i = e k then Y i else 0 := fun i => by split <;> simp
      simp [Back.sizeB, Lay.sizeFloat, backwardReindex, this]
    exact ⟨bnd, sz, zero H, fun k => (H.abs_le hy k).trans (sz k)⟩
  | skip =>
    obtain rfl := hb
    have H := holds_identity y
    have sz : ∀ k, (Back.identity (α := α)).sizeB Y k ≤ Lay.sizeFloat δ bn .skip Y L k := fun k => by
      simp only [Back.sizeB, Back.identity, Lay.sizeFloat, diag]; simp
    exact ⟨bnd, sz, zero H, fun k => (H.abs_le hy k).trans (sz k)⟩
  | batchNorm gamma beta mean sd =>
    have H := holds_batchNorm gamma beta mean sd y
    have sd0 : ∀ k, 0 < sd k := hl
    have wa : ∀ i k, |(backwardBatchNorm gamma beta mean sd).wu i k| = if i = k then |gamma k| / sd k else 0 := fun i k => by
      simp only [backwardBatchNorm]
      split
      · rename_i e; rw [e, one_mul, abs_div, abs_of_pos (sd0 k)]
      · simp
    have ba : ∀ k, |(backwardBatchNorm gamma beta mean sd).bu k| ≤ |gamma k| / sd k * |mean k| + |beta k| := fun k => by
      simp only [backwardBatchNorm]
      refine (abs_sub _ _).trans ?_
      rw [abs_mul, abs_div, abs_of_pos (sd0 k), add_comm]
    have wl : (backwardBatchNorm gamma beta mean sd).wl = (backwardBatchNorm gamma beta mean sd).wu := rfl
    have bl : (backwardBatchNorm gamma beta mean sd).bl = (backwardBatchNorm gamma beta mean sd).bu := rfl
    have hb1 := hb.1
    have hb2 := hb.2
    rw [wl] at hb1
    rw [bl] at hb2
    have M : ∀ k, (∑ i, |(backwardBatchNorm gamma beta mean sd).wu i k| * Y i) + (|gamma k| / sd k * |mean k| + |beta k|) ≤
        |gamma k| / sd k * (Y k + |mean k|) + |beta k| := fun k => by
      have : ∀ i, |(backwardBatchNorm gamma beta mean sd).wu i k| * Y i = if i = k then |gamma k| / sd k * Y k else 0 := fun i => by
        rw [wa]
        split
        · rename_i e; rw [e]
        · simp
      simp only [this, Finset.sum_ite_eq', Finset.mem_univ, if_true]
      linarith [mul_add (|gamma k| / sd k) (Y k) |mean k|]
    obtain ⟨f1, f2, f3⟩ := back_close (g := b) (M := fun k => |gamma k| / sd k * (Y k + |mean k|) + |beta k|) hY (zero H) hy (1 + bn) (by linarith)
      (fun i k => |(backwardBatchNorm gamma beta mean sd).wu i k|) (fun k => |gamma k| / sd k * |mean k| + |beta k|)
      (fun i k => by rw [wl, add_sub_cancel_left]; exact ⟨⟨(hb1 i k).1, le_rfl⟩, (hb1 i k).2, le_rfl⟩)
      (fun k => by rw [bl, add_sub_cancel_left]; exact ⟨⟨(hb2 k).1, ba k⟩, (hb2 k).2, ba k⟩) M
    refine ⟨fun i k => ?_, f2, fun k => ?_, fun k => ?_⟩
    · have : |b.wu i k| ≤ (1 + bn) * |(backwardBatchNorm gamma beta mean sd).wu i k| ∧
        |b.wl i k| ≤ (1 + bn) * |(backwardBatchNorm gamma beta mean sd).wu i k| := f1 i k
      rw [wa] at this
      simp only [Lay.weightFloat]
      split_ifs at this ⊢ <;> simpa using this
    · have := f3 k
      simpa only [Lay.ownFloat, zero_add, add_sub_cancel_left] using this
    · have q : |(Lay.batchNorm gamma beta mean sd).eval y k| ≤ |gamma k| / sd k * (Y k + |mean k|) + |beta k| := by
        refine (H.abs_le hy k).trans (le_trans ?_ (M k))
        simp only [Back.sizeB, wl, bl, max_self]
        exact add_le_add le_rfl (ba k)
      refine q.trans ?_
      have := mul_nonneg hbn ((abs_nonneg _).trans q)
      simp only [Lay.sizeFloat]
      linarith
  | relu gf gb =>
    obtain ⟨-, rfl⟩ := hb
    have F := fun k => float_hull hδ hδ1 h he sl (hy k) (hL k) (hs k) (hc k).1 (hc k).2
    refine ⟨fun i k => ?_, fun k => ?_, fun k => ?_, fun k => ?_⟩
    · simp only [Back.ofDiag, diagLike, Lay.weightFloat]
      split
      · exact (F k).1
      · simp
    · simp only [Back.sizeB, Back.ofDiag, diag, Lay.sizeFloat]
      exact add_le_add (mul_le_mul_of_nonneg_right (max_le (F k).1.1 (F k).1.2) (hY k)) (max_le (F k).2.1.1 (F k).2.1.2)
    · simp only [Back.ofDiag, diagLike_sum, Lay.eval, Lay.ownFloat]
      exact (F k).2.2
    · have r : |max (y k) 0| ≤ |y k| := by
        rcases le_total 0 (y k) with q | q
        · rw [max_eq_left q]
        · rw [max_eq_right q, abs_zero]; exact abs_nonneg _
      have := mul_le_mul_of_nonneg_right (one_le_quot hδ hδ1 2) (hY k)
      have := mul_nonneg (zero_le_one.trans (one_le_quot hδ hδ1 4)) ((abs_nonneg _).trans (hL k))
      simp only [Lay.eval, Lay.sizeFloat]
      linarith [hy k]

theorem Lay.weightFloat_nonneg [DecidableEq κ] (hδ : 0 ≤ δ) (hδ1 : δ < 1) {bn : α} (hbn : 0 ≤ bn) (l : Lay α κ κ') (hl : l.WF) (i : κ) (k : κ') :
    0 ≤ l.weightFloat δ bn i k := by
  cases l with
  | relu gf gb => simp only [Lay.weightFloat]; split <;> [exact zero_le_one.trans (one_le_quot hδ hδ1 2); exact le_rfl]
  | batchNorm gamma beta mean sd =>
    simp only [Lay.weightFloat]
    split <;> [exact mul_nonneg (by linarith) (div_nonneg (abs_nonneg _) (hl k).le); exact le_rfl]
  | dense kernel bias => exact Lay.absWeight_nonneg (.dense kernel bias) hl i k
  | linear J kernel bias => exact Lay.absWeight_nonneg (.linear J kernel bias) hl i k
  | reshape e => exact Lay.absWeight_nonneg (.reshape e) hl i k
  | skip => exact Lay.absWeight_nonneg (.skip) hl i k

theorem Lay.ownFloat_nonneg (hδ : 0 ≤ δ) (hδ1 : δ < 1) {eps bn : α} (he : 0 < eps) (hbn : 0 ≤ bn) (l : Lay α κ κ') (hl : l.WF) {Y L s : κ → α}
    (hY : ∀ k, 0 ≤ Y k) (hL : ∀ k, 0 ≤ L k) (hs : ∀ k, 0 ≤ s k) (k : κ') : 0 ≤ l.ownFloat δ eps bn Y L s k := by
  cases l with
  | relu gf gb =>
    have a1 := mul_nonneg (sub_nonneg.2 (one_le_quot hδ hδ1 2)) (hY k)
    have a2 := mul_nonneg (sub_nonneg.2 (one_le_quot hδ hδ1 4)) (hL k)
    have := hs k
    simp only [Lay.ownFloat]
    linarith
  | batchNorm gamma beta mean sd =>
    exact mul_nonneg hbn (add_nonneg (mul_nonneg (div_nonneg (abs_nonneg _) (hl k).le) (add_nonneg (hY k) (abs_nonneg _))) (abs_nonneg _))
  | _ => exact le_rfl

theorem Lay.sizeFloat_nonneg [Fintype κ] [DecidableEq κ] (hδ : 0 ≤ δ) (hδ1 : δ < 1) {bn : α} (hbn : 0 ≤ bn) (l : Lay α κ κ') (hl : l.WF) {Y L : κ → α}
    (hY : ∀ k, 0 ≤ Y k) (hL : ∀ k, 0 ≤ L k) (k : κ') : 0 ≤ l.sizeFloat δ bn Y L k := by
  cases l with
  | dense kernel bias => exact add_nonneg (Finset.sum_nonneg fun t _ => mul_nonneg (abs_nonneg _) (hY t)) (abs_nonneg _)
  | linear J kernel bias => exact add_nonneg (Finset.sum_nonneg fun t _ => mul_nonneg (Lay.absWeight_nonneg (.linear J kernel bias) hl t k) (hY t)) (abs_nonneg _)
  | relu gf gb => exact add_nonneg (mul_nonneg (zero_le_one.trans (one_le_quot hδ hδ1 2)) (hY k)) (mul_nonneg (zero_le_one.trans (one_le_quot hδ hδ1 4)) (hL k))
  | batchNorm gamma beta mean sd =>
    exact mul_nonneg (by linarith) (add_nonneg (mul_nonneg (div_nonneg (abs_nonneg _) (hl k).le) (add_nonneg (hY k) (abs_nonneg _))) (abs_nonneg _))
  | reshape e => exact hY _
  | skip => exact hY _

/-- The errors known in advance are not negative. -/
theorem Net.crownFloat_nonneg [Fintype ι] (hδ : 0 ≤ δ) (hδ1 : δ < 1) {eps bn : α} (he : 0 < eps) (hbn : 0 ≤ bn) {X : ι → α} (hX : ∀ i, 0 ≤ X i) (n : Net α ι κ)
    (hn : n.WF) :
    (∀ k, 0 ≤ (n.crownFloat δ eps bn X).size k) ∧ 0 ≤ (n.crownFloat δ eps bn X).grow ∧ 0 ≤ (n.crownFloat δ eps bn X).top ∧
      (∀ k, 0 ≤ (n.crownFloat δ eps bn X).slack k) ∧
      ∀ (B : κ → α) (M : α), (∀ k, 0 ≤ B k) → 0 ≤ M → 0 ≤ (n.crownFloat δ eps bn X).next B M := by
  have g0 : ∀ m, 0 ≤ (1 + δ) ^ m := fun m => zero_le_one.trans (one_le_gamma hδ m)
  induction n with
  | input => exact ⟨hX, g0 _, zero_le_one, fun _ => le_rfl, fun _ M _ hM => mul_nonneg (gamma_nonneg hδ _) hM⟩
  | layer n l ih =>
    obtain ⟨i1, i2, i3, i4, i5⟩ := ih hn.1
    have L0 := fun k => mul_nonneg (g0 (Fintype.card ι + 2)) (mul_nonneg i3 (i1 k))
    have r0 := fun k => add_nonneg (i4 k) (mul_nonneg (gamma_nonneg hδ (Fintype.card ι + 2)) (mul_nonneg i3 (i1 k)))
    have own0 := fun k => l.ownFloat_nonneg hδ hδ1 he hbn hn.2 i1 L0 r0 k
    have size0 := fun k => l.sizeFloat_nonneg hδ hδ1 hbn hn.2 i1 L0 k
    refine ⟨size0, mul_nonneg (g0 _) i2, i2, fun k => add_nonneg (own0 k) (i5 _ _ (fun i => l.weightFloat_nonneg hδ hδ1 hbn hn.2 i k) (size0 k)),
      fun B M hB hM => add_nonneg (add_nonneg (Finset.sum_nonneg fun k _ => mul_nonneg (hB k) (own0 k)) (mul_nonneg (gamma_nonneg hδ _) hM)) (i5 _ _ (fun i => ?_) ?_)⟩
    · exact mul_nonneg (g0 _) (Finset.sum_nonneg fun k _ => mul_nonneg (l.weightFloat_nonneg hδ hδ1 hbn hn.2 i k) (hB k))
    · exact mul_nonneg (g0 _) hM
  | merge op n0 n1 _ _ => exact ⟨fun _ => le_rfl, le_rfl, le_rfl, fun _ => le_rfl, fun _ _ _ _ => le_rfl⟩

/-- Some computed tensors: to see that the values of a layer are not larger than its tensors. -/
theorem Lay.eval_float [Fintype κ] [DecidableEq κ] (hδ : 0 ≤ δ) (hδ1 : δ < 1) {bn : α} (hbn : 0 ≤ bn) (l : Lay α κ κ') (hl : l.WF) {y Y L : κ → α}
    (hy : ∀ k, |y k| ≤ Y k) (hL : ∀ k, 0 ≤ L k) (k : κ') : |l.eval y k| ≤ l.sizeFloat δ bn Y L k := by
  have key : ∀ {b : Back κ κ' α}, l.RoundedBack id 1 .vSlope bn (fun _ => 0) (fun _ => 0) b → |l.eval y k| ≤ l.sizeFloat δ bn Y L k := fun hb =>
    (Lay.RoundedBack.near (s := fun k => |y k|) hδ hδ1 (fun a => by simpa using mul_nonneg hδ (abs_nonneg a)) one_pos hbn hl hy
      (fun k => by simpa using hL k) (fun k => abs_nonneg _) (fun k => ⟨by simpa using neg_abs_le (y k), by simpa using le_abs_self (y k)⟩) hb).2.2.2 k
  cases l with
  | relu gf gb =>
    have r : |max (y k) 0| ≤ |y k| := by
      rcases le_total 0 (y k) with q | q
      · rw [max_eq_left q]
      · rw [max_eq_right q, abs_zero]; exact abs_nonneg _
    have := mul_le_mul_of_nonneg_right (one_le_quot hδ hδ1 2) ((abs_nonneg _).trans (hy k))
    have := mul_nonneg (zero_le_one.trans (one_le_quot hδ hδ1 4)) (hL k)
    simp only [Lay.eval, Lay.sizeFloat]
    linarith [hy k]
  | batchNorm gamma beta mean sd =>
    refine key (b := backwardBatchNorm gamma beta mean sd) ⟨fun i k => ?_, fun k => ?_⟩
    · simpa using ⟨mul_nonneg hbn (abs_nonneg _), mul_nonneg hbn (abs_nonneg _)⟩
    · have := mul_nonneg hbn (add_nonneg (mul_nonneg (div_nonneg (abs_nonneg (gamma k)) (hl k).le) (abs_nonneg (mean k))) (abs_nonneg (beta k)))
      simpa using this
  | dense kernel bias => exact key rfl
  | linear J kernel bias => exact key rfl
  | reshape e => exact key rfl
  | skip => exact key rfl

theorem Net.eval_float [Fintype ι] (hδ : 0 ≤ δ) (hδ1 : δ < 1) {eps bn : α} (he : 0 < eps) (hbn : 0 ≤ bn) {X p : ι → α} (hp : ∀ i, |p i| ≤ X i) (n : Net α ι κ)
    (hc : n.Chain) (hn : n.WF) (k : κ) : |n.eval p k| ≤ (n.crownFloat δ eps bn X).size k := by
  induction n with
  | input => exact hp k
  | layer n l ih =>
    obtain ⟨i1, -, i3, -⟩ := n.crownFloat_nonneg hδ hδ1 he hbn (fun i => (abs_nonneg _).trans (hp i)) hn.1
    exact l.eval_float hδ hδ1 hbn hn.2 (ih hc hn.1) (fun k => mul_nonneg (zero_le_one.trans (one_le_gamma hδ _)) (mul_nonneg i3 (i1 k))) k
  | merge op n0 n1 _ _ => exact absurd hc (by simp [Net.Chain])

/-- The constant bounds computed from backward bounds of known size and error. -/
theorem ConstRounded.range [Fintype ι] (hδ : 0 ≤ δ) (h : RelError rd δ) {x : BoxOf ι α} {b : Back ι κ α} {u l : κ → α} (hr : ConstRounded rd x b u l)
    {X p : ι → α} (hX : ∀ i, |x.1 i| ≤ X i ∧ |x.2 i| ≤ X i) (hp : p ∈ Box x.1 x.2) {y s M : κ → α} (v : b.Near p y s) (hM : ∀ k, b.sizeB X k ≤ M k) (k : κ) :
    (l k - (s k + ((1 + δ) ^ (Fintype.card ι + 2) - 1) * M k) ≤ y k ∧ y k ≤ u k + (s k + ((1 + δ) ^ (Fintype.card ι + 2) - 1) * M k)) ∧
      |l k| ≤ (1 + δ) ^ (Fintype.card ι + 2) * M k := by
  have g0 : 0 ≤ (1 + δ) ^ (Fintype.card ι + 2) - 1 := gamma_nonneg hδ _
  have hX0 : ∀ i, 0 ≤ X i := fun i => (abs_nonneg _).trans (hX i).1
  obtain ⟨⟨d, hd, e⟩, d', hd', e'⟩ := hr k
  have z := (sizeB_up hX0 b k)
  have q1 := box_sum_error hδ h x.2 x.1 (fun i => b.wu i k) X (b.bu k) d (fun i => (hX i).2) (fun i => (hX i).1) hd
  have q2 := box_sum_error hδ h x.1 x.2 (fun i => b.wl i k) X (b.bl k) d' (fun i => (hX i).1) (fun i => (hX i).2) hd'
  rw [← e] at q1
  rw [← e'] at q2
  have r1 := abs_le.1 (q1.1.trans (mul_le_mul_of_nonneg_left (z.1.trans (hM k)) g0))
  have r2 := q2.1.trans (mul_le_mul_of_nonneg_left (z.2.trans (hM k)) g0)
  have r3 := abs_le.1 r2
  have s1 := (boxDomain_sound x.1 x.2 p hp (fun i => b.wu i k) (b.bu k)).2
  have s2 := (boxDomain_sound x.1 x.2 p hp (fun i => b.wl i k) (b.bl k)).1
  simp only [boxDomain, getUpperBox, getLowerBox] at s1 s2
  refine ⟨⟨?_, ?_⟩, abs_of_close r2 (q2.2.trans (z.2.trans (hM k)))⟩
  · linarith [(v k).1, r3.2]
  · linarith [(v k).2, r1.1]

/-- Both entries of `crown_` on a chain. -/
theorem Net.RoundedCrown.near [iF : Fintype ι] [DecidableEq ι] (hδ : 0 ≤ δ) (hδ1 : δ < 1) (h : RelError rd δ) {eps : α} (he : 0 < eps) {sl : Slope} {bn : α}
    (hbn : 0 ≤ bn) {x : BoxOf ι α} {X p : ι → α} (hX : ∀ i, |x.1 i| ≤ X i ∧ |x.2 i| ≤ X i) (hp : p ∈ Box x.1 x.2) (hpX : ∀ i, |p i| ≤ X i) {κ : Type}
    (n : Net α ι κ) (hc : n.Chain) (hn : n.WF) :
    (∀ b, (n.RoundedCrown rd eps sl bn x).1 b → b.Near p (n.eval p) (n.crownFloat δ eps bn X).slack ∧
      ∀ k, b.sizeB X k ≤ (n.crownFloat δ eps bn X).top * (n.crownFloat δ eps bn X).size k) ∧
    ∀ [Fintype κ], ∀ (ν : Type) (b : Back κ ν α) (z sb M : ν → α) (B : κ → ν → α), (∀ k j, 0 ≤ B k j) → b.Bnd B → b.Near (n.eval p) z sb →
      (∀ j, b.sizeB (n.crownFloat δ eps bn X).size j ≤ M j) → ∀ b', (n.RoundedCrown rd eps sl bn x).2 ν b b' →
      b'.Near p z (fun j => sb j + (n.crownFloat δ eps bn X).next (fun k => B k j) (M j)) ∧ ∀ j, b'.sizeB X j ≤ (n.crownFloat δ eps bn X).grow * M j := by
  have hX0 : ∀ i, 0 ≤ X i := fun i => (abs_nonneg _).trans (hpX i)
  induction n with
  | input =>
    have idn : ∀ k, (Back.identity (α := α)).sizeB X k = X k := fun k => by
      have : ∀ i, max |diagLike (fun _ => (1 : α)) i k| |diagLike (fun _ => (1 : α)) i k| * X i = if i = k then X i else 0 := fun i => by
        simp only [diagLike]; split <;> simp
      simp only [Back.sizeB, Back.identity, this]
      simp
    have n0 : (Back.identity (α := α)).Near p p (fun _ => 0) := fun k => by simpa using holds_identity p k
    constructor
    · rintro b rfl
      exact ⟨n0, fun k => by rw [idn]; simp only [Net.crownFloat, one_mul]; exact le_rfl⟩
    · intro inst ν b z sb M B hB0 hB h2 hM b' hb'
      obtain rfl : iF = inst := Subsingleton.elim _ _
      have A : (Back.identity (α := α)).Bnd (fun i k : ι => max |(Back.identity (α := α)).wu i k| |(Back.identity (α := α)).wl i k|) := fun i k =>
        ⟨le_max_left _ _, le_max_right _ _⟩
      obtain ⟨-, a2, a3⟩ := MergeRounded.near hδ h hb' hpX (fun _ => le_rfl) A hB n0 h2 (fun k => (idn k).le) hM
      refine ⟨a3.mono fun j => le_of_eq ?_, a2⟩
      simp only [mul_zero, Finset.sum_const_zero, zero_add, Net.crownFloat]
  | merge op n0 n1 _ _ => exact absurd hc (by simp [Net.Chain])
  | @layer κ₁ κ₂ _ _ i3 n l ih =>
    obtain ⟨hfirst, hnext⟩ := ih hc hn.1
    obtain ⟨p1, p2, p3, p4, p5⟩ := n.crownFloat_nonneg hδ hδ1 he hbn hX0 hn.1
    have hy := fun k => n.eval_float hδ hδ1 he hbn hpX hc hn.1 k
    set c := n.crownFloat δ eps bn X with hcdef
    set L : κ₁ → α := fun k => (1 + δ) ^ (Fintype.card ι + 2) * (c.top * c.size k) with hLdef
    have L0 : ∀ k, 0 ≤ L k := fun k => mul_nonneg (zero_le_one.trans (one_le_gamma hδ _)) (mul_nonneg p3 (p1 k))
    have r0 : ∀ k, 0 ≤ c.range δ (Fintype.card ι) k := fun k => add_nonneg (p4 k) (mul_nonneg (gamma_nonneg hδ (Fintype.card ι + 2)) (mul_nonneg p3 (p1 k)))
    have own0 : ∀ k, 0 ≤ l.ownFloat δ eps bn c.size L (c.range δ (Fintype.card ι)) k := fun k => l.ownFloat_nonneg hδ hδ1 he hbn hn.2 p1 L0 r0 k
    have new : ∀ nb, (∃ b0 u lo, (n.RoundedCrown rd eps sl bn x).1 b0 ∧ ConstRounded rd x b0 u lo ∧ l.RoundedBack rd eps sl bn u lo nb) →
        nb.Bnd (l.weightFloat δ bn) ∧ (∀ k, nb.sizeB c.size k ≤ l.sizeFloat δ bn c.size L k) ∧
        nb.Near (n.eval p) (l.eval (n.eval p)) (l.ownFloat δ eps bn c.size L (c.range δ (Fintype.card ι))) := by
      rintro nb ⟨b0, u, lo, h0, h1, h2⟩
      obtain ⟨a1, a2⟩ := hfirst b0 h0
      have R := fun k => h1.range hδ h hX hp a1 a2 k
      obtain ⟨e1, e2, e3, -⟩ := h2.near hδ hδ1 h he hbn hn.2 hy (fun k => (R k).2) r0 (fun k => (R k).1)
      exact ⟨e1, e2, e3⟩
    constructor
    · rintro b ⟨nb, h1, h2⟩
      obtain ⟨e1, e2, e3⟩ := new nb h1
      exact hnext κ₂ nb _ _ _ _ (fun i k => l.weightFloat_nonneg hδ hδ1 hbn hn.2 i k) e1 e3 e2 b h2
    · rintro inst ν b z sb M B hB0 hB h2 hM b' ⟨nb, bm, h3, h4, h5⟩
      obtain rfl : i3 = inst := Subsingleton.elim _ _
      obtain ⟨e1, e2, e3⟩ := new nb h3
      obtain ⟨m1, m2, m3⟩ := MergeRounded.near hδ h h4 hy own0 e1 hB e3 h2 e2 hM
      obtain ⟨f1, f2⟩ := hnext ν bm z _ _ _ (fun i j => mul_nonneg (zero_le_one.trans (one_le_gamma hδ _)) (Finset.sum_nonneg fun k _ =>
        mul_nonneg (l.weightFloat_nonneg hδ hδ1 hbn hn.2 i k) (hB0 k j))) m1 m3 m2 b' h5
      refine ⟨f1.mono fun j => le_of_eq ?_, fun j => (f2 j).trans (le_of_eq ?_)⟩
      · simp only [Net.crownFloat, ← hcdef, ← hLdef]
        ring
      · simp only [Net.crownFloat, ← hcdef]
        ring

end

end Decomon
