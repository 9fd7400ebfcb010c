import Verif.Lemmas.RunsAffine
import Verif.Props.RunsAffine
import Verif.Model.FloatAffine

/-! Lemmas about affine bounds in rounded arithmetic. -/

namespace Decomon

section
variable {ι κ κ' α : Type} [Field α] [LinearOrder α] [IsStrictOrderedRing α] [Fintype ι]

/-- One more rounding. -/
theorem rd_step {rd : α → α} {δ : α} (hδ : 0 ≤ δ) (h : RelError rd δ) {a A c S : α} (ha : |a - A| ≤ (c - 1) * S) (hA : |A| ≤ S) :
    |rd a - A| ≤ (c * (1 + δ) - 1) * S := by
  have e1 : |a| ≤ |a - A| + |A| := by simpa using abs_add_le (a - A) A
  have e2 := h a
  have e3 := mul_le_mul_of_nonneg_left (show |a| ≤ c * S by linarith) hδ
  have e4 : |rd a - A| ≤ |rd a - a| + |a - A| := by simpa using abs_add_le (rd a - a) (a - A)
  nlinarith

theorem rd_add {rd : α → α} {δ : α} (hδ : 0 ≤ δ) (h : RelError rd δ) {a b A B c SA SB : α} (ha : |a - A| ≤ (c - 1) * SA) (hb : |b - B| ≤ (c - 1) * SB)
    (hA : |A| ≤ SA) (hB : |B| ≤ SB) : |rd (a + b) - (A + B)| ≤ (c * (1 + δ) - 1) * (SA + SB) := by
  refine rd_step hδ h ?_ ((abs_add_le A B).trans (add_le_add hA hB))
  rw [show a + b - (A + B) = (a - A) + (b - B) by ring, mul_add]
  exact (abs_add_le _ _).trans (add_le_add ha hb)

theorem abs_of_close {a A c S : α} (ha : |a - A| ≤ (c - 1) * S) (hA : |A| ≤ S) : |a| ≤ c * S := by
  have e1 : |a| ≤ |a - A| + |A| := by simpa using abs_add_le (a - A) A
  linarith

theorem mul_close {a A c S x y : α} (ha : |a - A| ≤ (c - 1) * S) (hc : 0 ≤ (c - 1) * S) (hx : |x| ≤ y) : |a * x - A * x| ≤ (c - 1) * (S * y) := by
  rw [← sub_mul, abs_mul, ← mul_assoc]
  exact mul_le_mul ha hx (abs_nonneg _) hc

/-- The value of an affine form whose coefficients are changed. -/
theorem aff_close (w w' p X e : ι → α) (b b' c : α) (hp : ∀ i, |p i| ≤ X i) (hw : ∀ i, |w' i - w i| ≤ e i) (hb : |b' - b| ≤ c) :
    |affEval w' b' p - affEval w b p| ≤ (∑ i, e i * X i) + c := by
  have e1 : affEval w' b' p - affEval w b p = ∑ i, (w' i - w i) * p i + (b' - b) := by
    simp only [affEval, sub_mul, Finset.sum_sub_distrib]
    ring
  rw [e1]
  refine (abs_add_le _ _).trans (add_le_add ((Finset.abs_sum_le_sum_abs _ _).trans (Finset.sum_le_sum fun i _ => ?_)) hb)
  rw [abs_mul]
  exact mul_le_mul (hw i) (hp i) (abs_nonneg _) ((abs_nonneg _).trans (hw i))

theorem Near.close {X' : Type} {f g : Full X' ι κ α} {p X : ι → α} {y s : κ → α} (v : Near .affine f p y s) (hp : ∀ i, |p i| ≤ X i) (e : ι → κ → α) (c t : κ → α)
    (hw : ∀ i k, |g.wu i k - f.wu i k| ≤ e i k ∧ |g.wl i k - f.wl i k| ≤ e i k) (hb : ∀ k, |g.bu k - f.bu k| ≤ c k ∧ |g.bl k - f.bl k| ≤ c k)
    (ht : ∀ k, (∑ i, e i k * X i) + c k ≤ t k) : Near .affine g p y (fun k => s k + t k) := by
  refine ⟨fun hi => absurd hi (by simp [getIbp]), fun ha k => ?_⟩
  have h1 := v.aff ha k
  have h2 := abs_le.1 (aff_close (fun i => f.wu i k) (fun i => g.wu i k) p X (fun i => e i k) _ _ (c k) hp (fun i => (hw i k).1) (hb k).1)
  have h3 := abs_le.1 (aff_close (fun i => f.wl i k) (fun i => g.wl i k) p X (fun i => e i k) _ _ (c k) hp (fun i => (hw i k).2) (hb k).2)
  have := ht k
  constructor <;> linarith

theorem sizeAff_le {X' : Type} {g : Full X' ι κ α} {X : ι → α} (hX : ∀ i, 0 ≤ X i) {k : κ} (W : ι → α) (B : α)
    (hw : ∀ i, |g.wu i k| ≤ W i ∧ |g.wl i k| ≤ W i) (hb : |g.bu k| ≤ B ∧ |g.bl k| ≤ B) : g.sizeAff X k ≤ (∑ i, W i * X i) + B :=
  add_le_add (Finset.sum_le_sum fun i _ => mul_le_mul_of_nonneg_right (max_le (hw i).1 (hw i).2) (hX i)) (max_le hb.1 hb.2)

theorem sizeAff_nonneg {X' : Type} (f : Full X' ι κ α) {X : ι → α} (hX : ∀ i, 0 ≤ X i) (k : κ) : 0 ≤ f.sizeAff X k :=
  add_nonneg (Finset.sum_nonneg fun i _ => mul_nonneg ((abs_nonneg _).trans (le_max_left _ _)) (hX i)) ((abs_nonneg _).trans (le_max_left _ _))

/-- Entry by entry, a computed tensor close to `f` with errors in proportion to `S`. -/
theorem close_step {X' : Type} {f g : Full X' ι κ α} {p X : ι → α} {y s M : κ → α} (hX : ∀ i, 0 ≤ X i) (v : Near .affine f p y s) (hp : ∀ i, |p i| ≤ X i)
    (G : α) (hG : 1 ≤ G) (S : ι → κ → α) (B : κ → α)
    (hw : ∀ i k, (|g.wu i k - f.wu i k| ≤ (G - 1) * S i k ∧ |f.wu i k| ≤ S i k) ∧ |g.wl i k - f.wl i k| ≤ (G - 1) * S i k ∧ |f.wl i k| ≤ S i k)
    (hb : ∀ k, (|g.bu k - f.bu k| ≤ (G - 1) * B k ∧ |f.bu k| ≤ B k) ∧ |g.bl k - f.bl k| ≤ (G - 1) * B k ∧ |f.bl k| ≤ B k)
    (hM : ∀ k, (∑ i, S i k * X i) + B k ≤ M k) : (∀ k, g.sizeAff X k ≤ G * M k) ∧ Near .affine g p y (fun k => s k + (G - 1) * M k) := by
  have e : ∀ (c : α) k, (∑ i, c * S i k * X i) + c * B k = c * ((∑ i, S i k * X i) + B k) := fun c k => by
    rw [mul_add, Finset.mul_sum]
    congr 1
    exact Finset.sum_congr rfl fun i _ => mul_assoc _ _ _
  constructor
  · intro k
    refine (sizeAff_le hX (fun i => G * S i k) (G * B k) (fun i => ⟨abs_of_close (hw i k).1.1 (hw i k).1.2, abs_of_close (hw i k).2.1 (hw i k).2.2⟩)
      ⟨abs_of_close (hb k).1.1 (hb k).1.2, abs_of_close (hb k).2.1 (hb k).2.2⟩).trans ?_
    rw [e]
    exact mul_le_mul_of_nonneg_left (hM k) (zero_le_one.trans hG)
  · refine v.close hp (fun i k => (G - 1) * S i k) (fun k => (G - 1) * B k) _ (fun i k => ⟨(hw i k).1.1, (hw i k).2.1⟩) (fun k => ⟨(hb k).1.1, (hb k).2.1⟩)
      fun k => ?_
    rw [e]
    exact mul_le_mul_of_nonneg_left (hM k) (sub_nonneg.2 hG)

theorem one_le_gamma {δ : α} (hδ : 0 ≤ δ) (n : ℕ) : 1 ≤ (1 + δ) ^ n := one_le_pow₀ (by linarith)

theorem split_size {τ : Type} [Fintype τ] (x y w A : τ → α) (hx : ∀ t, |x t| ≤ A t) (hy : ∀ t, |y t| ≤ A t) :
    |(∑ t, x t * max 0 (w t)) + ∑ t, y t * min 0 (w t)| ≤ ∑ t, |w t| * A t := by
  rw [← Finset.sum_add_distrib]
  refine (Finset.abs_sum_le_sum_abs _ _).trans (Finset.sum_le_sum fun t _ => ?_)
  rcases le_total 0 (w t) with hw | hw
  · rw [max_eq_right hw, min_eq_left hw, mul_zero, add_zero, abs_mul, mul_comm]
    exact mul_le_mul_of_nonneg_left (hx t) (abs_nonneg _)
  · rw [max_eq_left hw, min_eq_right hw, mul_zero, zero_add, abs_mul, mul_comm]
    exact mul_le_mul_of_nonneg_left (hy t) (abs_nonneg _)

theorem size_sum {τ : Type} [Fintype τ] (c : τ → α) (A : ι → τ → α) (X : ι → α) (B : τ → α) (b : α) :
    (∑ i, (∑ t, c t * A i t) * X i) + ((∑ t, c t * B t) + b) = (∑ t, c t * ((∑ i, A i t * X i) + B t)) + b := by
  have : ∑ i, (∑ t, c t * A i t) * X i = ∑ t, c t * ∑ i, A i t * X i := by
    simp only [Finset.sum_mul, Finset.mul_sum]
    rw [Finset.sum_comm]
    exact Finset.sum_congr rfl fun t _ => Finset.sum_congr rfl fun i _ => mul_assoc _ _ _
  rw [this]
  simp only [mul_add, Finset.sum_add_distrib]
  ring

theorem Lay.forward_spread [Fintype κ] {X : Type} (D : PertDomain X ι α) (m : Mode) {eps : α} (he : 0 < eps) (sl : Slope) (l : Lay α κ κ') (hl : l.WF)
    {f : Full X ι κ α} {S : Set (ι → α)} (hD : D.Sound f.x S) {p : ι → α} (hp : p ∈ S) {y s : κ → α} (hs : ∀ k, 0 ≤ s k) (v : Near m f p y s) :
    Near m (l.forward D m eps sl f) p (l.eval y) (l.spreadTol eps s) := by
  have v' : Near m f p y (fun k => eps * (s k / eps)) := v.congr (fun _ => rfl) fun k => by field_simp
  exact (l.forward_near D m eps he sl hl f S hD p hp y (fun k => s k / eps) (fun k => div_nonneg (hs k) he.le) v').congr (fun _ => rfl)
    fun k => l.spreadTol_eq eps he s k

theorem tighten_affine {X : Type} (D : PertDomain X ι α) (f : Full X ι κ α) : f.tighten D .affine false true = f := by simp [Full.tighten]

section
variable {rd : α → α} {δ : α}

theorem float_dense [Fintype κ] (hδ : 0 ≤ δ) (h : RelError rd δ) (eps : α) (he : 0 < eps) (sl : Slope) (kernel : κ → κ' → α) (bias : κ' → α)
    {f : Full (BoxOf ι α) ι κ α} {g : Full (BoxOf ι α) ι κ' α} (hg : DenseRounded rd kernel bias f g) {R : Set (ι → α)} (hD : boxDomain.Sound f.x R)
    {p X : ι → α} (hR : p ∈ R) (hX : ∀ i, 0 ≤ X i) (hp : ∀ i, |p i| ≤ X i) {y s M : κ → α} (hs : ∀ k, 0 ≤ s k) (v : Near .affine f p y s)
    (hM : ∀ k, f.sizeAff X k ≤ M k) (bn : α) (n : ℕ) :
    (∀ k, g.sizeAff X k ≤ (Lay.dense kernel bias).growAff δ bn n M k) ∧ Near .affine g p ((Lay.dense kernel bias).eval y)
      (fun k => (Lay.dense kernel bias).spreadTol eps s k + (Lay.dense kernel bias).lossAff δ bn n M k) := by
  have key := (Lay.dense kernel bias).forward_spread boxDomain .affine he sl trivial hD hR hs v
  simp only [Lay.forward, denseT, tighten_affine, getAffine, if_true] at key
  have c : ∀ (v : κ → α) o, ∑ t, max 0 (kernel t o) * v t = ∑ t, v t * max 0 (kernel t o) := fun v o => Finset.sum_congr rfl fun t _ => mul_comm _ _
  have c' : ∀ (v : κ → α) o, ∑ t, min 0 (kernel t o) * v t = ∑ t, v t * min 0 (kernel t o) := fun v o => Finset.sum_congr rfl fun t _ => mul_comm _ _
  simp only [c, c'] at key
  have b0 : ∀ (a : α) o, a ≤ a + |bias o| := fun a o => le_add_of_nonneg_right (abs_nonneg _)
  have eq : ∀ a b c : α, |a + b + c| ≤ |a + b| + |c| := fun a b c => abs_add_le _ _
  refine close_step hX key hp ((1 + δ) ^ (Fintype.card κ + 2)) (one_le_gamma hδ _) (fun i o => ∑ t, |kernel t o| * max |f.wu i t| |f.wl i t|)
    (fun o => (∑ t, |kernel t o| * max |f.bu t| |f.bl t|) + |bias o|) (fun i o => ⟨?_, ?_⟩) (fun o => ⟨?_, ?_⟩) fun o => ?_
  · obtain ⟨a, b, ha, hb', e⟩ := hg.wu i o
    exact ⟨by rw [e]; exact split_error' hδ h _ _ (fun t => kernel t o) _ (fun t => le_max_left _ _) (fun t => le_max_right _ _) a b ha hb',
      split_size _ _ _ _ (fun t => le_max_left _ _) (fun t => le_max_right _ _)⟩
  · obtain ⟨a, b, ha, hb', e⟩ := hg.wl i o
    exact ⟨by rw [e]; exact split_error' hδ h _ _ (fun t => kernel t o) _ (fun t => le_max_right _ _) (fun t => le_max_left _ _) a b ha hb',
      split_size _ _ _ _ (fun t => le_max_right _ _) (fun t => le_max_left _ _)⟩
  · obtain ⟨a, b, ha, hb', e⟩ := hg.bu o
    exact ⟨by rw [e]; exact split_error hδ h _ _ (fun t => kernel t o) _ (fun t => le_max_left _ _) (fun t => le_max_right _ _) (bias o) a b ha hb',
      (eq _ _ _).trans (add_le_add (split_size _ _ _ _ (fun t => le_max_left _ _) (fun t => le_max_right _ _)) le_rfl)⟩
  · obtain ⟨a, b, ha, hb', e⟩ := hg.bl o
    exact ⟨by rw [e]; exact split_error hδ h _ _ (fun t => kernel t o) _ (fun t => le_max_right _ _) (fun t => le_max_left _ _) (bias o) a b ha hb',
      (eq _ _ _).trans (add_le_add (split_size _ _ _ _ (fun t => le_max_right _ _) (fun t => le_max_left _ _)) le_rfl)⟩
  · rw [size_sum]
    exact add_le_add (Finset.sum_le_sum fun t _ => mul_le_mul_of_nonneg_left (hM t) (abs_nonneg _)) le_rfl

theorem float_linear [Fintype κ] {T Q : Type} [Fintype T] (hδ : 0 ≤ δ) (h : RelError rd δ) (eps : α) (he : 0 < eps) (sl : Slope) (L : LinIndex κ κ' T Q)
    (kernel : Q → α) (bias : κ' → α) {f : Full (BoxOf ι α) ι κ α} {g : Full (BoxOf ι α) ι κ' α} (hg : LinearRounded rd L kernel bias f g)
    {R : Set (ι → α)} (hD : boxDomain.Sound f.x R) {p X : ι → α} (hR : p ∈ R) (hX : ∀ i, 0 ≤ X i) (hp : ∀ i, |p i| ≤ X i) {y s M : κ → α}
    (hs : ∀ k, 0 ≤ s k) (v : Near .affine f p y s) (hM : ∀ k, f.sizeAff X k ≤ M k) (bn : α) (n : ℕ) :
    (∀ k, g.sizeAff X k ≤ (Lay.linear L kernel bias).growAff δ bn n M k) ∧ Near .affine g p ((Lay.linear L kernel bias).eval y)
      (fun k => (Lay.linear L kernel bias).spreadTol eps s k + (Lay.linear L kernel bias).lossAff δ bn n M k) := by
  have key := (Lay.linear L kernel bias).forward_spread boxDomain .affine he sl trivial hD hR hs v
  simp only [Lay.forward, linearLayerT, tighten_affine, getAffine, if_true, LinIndex.apply] at key
  have c : ∀ (v : κ → α) o, ∑ t, max 0 (kernel (L.kidx o t)) * (L.src o t).elim 0 v = ∑ t, (L.src o t).elim 0 v * max 0 (kernel (L.kidx o t)) :=
    fun v o => Finset.sum_congr rfl fun t _ => mul_comm _ _
  have c' : ∀ (v : κ → α) o, ∑ t, min 0 (kernel (L.kidx o t)) * (L.src o t).elim 0 v = ∑ t, (L.src o t).elim 0 v * min 0 (kernel (L.kidx o t)) :=
    fun v o => Finset.sum_congr rfl fun t _ => mul_comm _ _
  simp only [c, c'] at key
  have eq : ∀ a b c : α, |a + b + c| ≤ |a + b| + |c| := fun a b c => abs_add_le _ _
  have l1 : ∀ (o : κ') (t : T) (a b : κ → α), |(L.src o t).elim 0 a| ≤ (L.src o t).elim 0 fun q => max |a q| |b q| := fun o t a b => by
    cases L.src o t with
    | none => simp
    | some k => exact le_max_left _ _
  have l2 : ∀ (o : κ') (t : T) (a b : κ → α), |(L.src o t).elim 0 b| ≤ (L.src o t).elim 0 fun q => max |a q| |b q| := fun o t a b => by
    cases L.src o t with
    | none => simp
    | some k => exact le_max_right _ _
  refine close_step hX key hp ((1 + δ) ^ (Fintype.card T + 2)) (one_le_gamma hδ _)
    (fun i o => ∑ t, |kernel (L.kidx o t)| * (L.src o t).elim 0 fun q => max |f.wu i q| |f.wl i q|)
    (fun o => (∑ t, |kernel (L.kidx o t)| * (L.src o t).elim 0 fun q => max |f.bu q| |f.bl q|) + |bias o|) (fun i o => ⟨?_, ?_⟩) (fun o => ⟨?_, ?_⟩) fun o => ?_
  · obtain ⟨a, b, ha, hb', e⟩ := hg.wu i o
    rw [e]
    exact ⟨split_error' hδ h _ _ (fun t => kernel (L.kidx o t)) _ (fun t => l1 o t _ _) (fun t => l2 o t _ _) a b ha hb',
      split_size _ _ _ _ (fun t => l1 o t _ _) (fun t => l2 o t _ _)⟩
  · obtain ⟨a, b, ha, hb', e⟩ := hg.wl i o
    rw [e]
    exact ⟨split_error' hδ h _ _ (fun t => kernel (L.kidx o t)) _ (fun t => l2 o t _ _) (fun t => l1 o t _ _) a b ha hb',
      split_size _ _ _ _ (fun t => l2 o t _ _) (fun t => l1 o t _ _)⟩
  · obtain ⟨a, b, ha, hb', e⟩ := hg.bu o
    rw [e]
    exact ⟨split_error hδ h _ _ (fun t => kernel (L.kidx o t)) _ (fun t => l1 o t _ _) (fun t => l2 o t _ _) (bias o) a b ha hb',
      (eq _ _ _).trans (add_le_add (split_size _ _ _ _ (fun t => l1 o t _ _) (fun t => l2 o t _ _)) le_rfl)⟩
  · obtain ⟨a, b, ha, hb', e⟩ := hg.bl o
    rw [e]
    exact ⟨split_error hδ h _ _ (fun t => kernel (L.kidx o t)) _ (fun t => l2 o t _ _) (fun t => l1 o t _ _) (bias o) a b ha hb',
      (eq _ _ _).trans (add_le_add (split_size _ _ _ _ (fun t => l2 o t _ _) (fun t => l1 o t _ _)) le_rfl)⟩
  · rw [size_sum]
    refine add_le_add (Finset.sum_le_sum fun t _ => mul_le_mul_of_nonneg_left ?_ (abs_nonneg _)) le_rfl
    cases L.src o t with
    | none => simp
    | some q => exact hM q

theorem box_sum_error (hδ : 0 ≤ δ) (h : RelError rd δ) (z1 z2 w X : ι → α) (b d : α) (h1 : ∀ i, |z1 i| ≤ X i) (h2 : ∀ i, |z2 i| ≤ X i)
    (hd : IsSum rd (fun i => rd (max (w i) 0 * z1 i) + rd (min (w i) 0 * z2 i)) d) :
    |rd (d + b) - ((∑ i, (max (w i) 0 * z1 i + min (w i) 0 * z2 i)) + b)| ≤ ((1 + δ) ^ (Fintype.card ι + 2) - 1) * ((∑ i, |w i| * X i) + |b|) ∧
      |(∑ i, (max (w i) 0 * z1 i + min (w i) 0 * z2 i)) + b| ≤ (∑ i, |w i| * X i) + |b| := by
  have hw : ∀ i, |max (w i) 0 * z1 i| + |min (w i) 0 * z2 i| ≤ |w i| * X i := fun i => by
    rcases le_total 0 (w i) with q | q
    · rw [max_eq_left q, min_eq_right q, zero_mul, abs_zero, add_zero, abs_mul]
      exact mul_le_mul_of_nonneg_left (h1 i) (abs_nonneg _)
    · rw [max_eq_right q, min_eq_left q, zero_mul, abs_zero, zero_add, abs_mul]
      exact mul_le_mul_of_nonneg_left (h2 i) (abs_nonneg _)
  have t1 : ∀ i, |(rd (max (w i) 0 * z1 i) + rd (min (w i) 0 * z2 i)) - (max (w i) 0 * z1 i + min (w i) 0 * z2 i)| ≤ δ * (|w i| * X i) := fun i => by
    have e1 := h (max (w i) 0 * z1 i)
    have e2 := h (min (w i) 0 * z2 i)
    rw [add_sub_add_comm]
    refine (abs_add_le _ _).trans ((add_le_add e1 e2).trans ?_)
    rw [← mul_add]
    exact mul_le_mul_of_nonneg_left (hw i) hδ
  have t2 : ∀ i, |max (w i) 0 * z1 i + min (w i) 0 * z2 i| ≤ |w i| * X i := fun i => (abs_add_le _ _).trans (hw i)
  have t3 : ∀ i, |rd (max (w i) 0 * z1 i) + rd (min (w i) 0 * z2 i)| ≤ (1 + δ) * (|w i| * X i) := fun i =>
    abs_of_close (by simpa using t1 i) (t2 i)
  obtain ⟨e1, -⟩ := isSum_error hδ h _ d hd
  have s3 : ∑ i, |rd (max (w i) 0 * z1 i) + rd (min (w i) 0 * z2 i)| ≤ (1 + δ) * ∑ i, |w i| * X i := by
    rw [Finset.mul_sum]
    exact Finset.sum_le_sum fun i _ => t3 i
  have s1 : |(∑ i, (rd (max (w i) 0 * z1 i) + rd (min (w i) 0 * z2 i))) - ∑ i, (max (w i) 0 * z1 i + min (w i) 0 * z2 i)| ≤ δ * ∑ i, |w i| * X i := by
    rw [← Finset.sum_sub_distrib, Finset.mul_sum]
    exact (Finset.abs_sum_le_sum_abs _ _).trans (Finset.sum_le_sum fun i _ => t1 i)
  have s2 : |∑ i, (max (w i) 0 * z1 i + min (w i) 0 * z2 i)| ≤ ∑ i, |w i| * X i :=
    (Finset.abs_sum_le_sum_abs _ _).trans (Finset.sum_le_sum fun i _ => t2 i)
  have e2 : |d - ∑ i, (max (w i) 0 * z1 i + min (w i) 0 * z2 i)| ≤ ((1 + δ) ^ (Fintype.card ι + 1) - 1) * ∑ i, |w i| * X i := by
    have q := abs_add_le (d - ∑ i, (rd (max (w i) 0 * z1 i) + rd (min (w i) 0 * z2 i)))
      ((∑ i, (rd (max (w i) 0 * z1 i) + rd (min (w i) 0 * z2 i))) - ∑ i, (max (w i) 0 * z1 i + min (w i) 0 * z2 i))
    rw [sub_add_sub_cancel] at q
    have q2 := mul_le_mul_of_nonneg_left s3 (gamma_nonneg hδ (Fintype.card ι))
    rw [pow_succ]
    linarith
  exact round_add hδ h (Fintype.card ι + 1) e2 (const_error hδ _ b) s2 le_rfl

/-- The relative error of a quotient. -/
theorem div_close {a A d D : α} (hδ : 0 ≤ δ) (hδ1 : δ < 1) (hA : 0 ≤ A) (hD : 0 < D) (ha : |a - A| ≤ δ * A) (hd : |d - D| ≤ δ * D) :
    |a / d - A / D| ≤ ((1 + δ) / (1 - δ) - 1) * (A / D) := by
  have a1 := abs_le.1 ha
  have d1 := abs_le.1 hd
  have h1 : 0 < 1 - δ := by linarith
  have hd0 : 0 < d := by nlinarith
  have q : (1 + δ) / (1 - δ) - 1 = 2 * δ / (1 - δ) := by field_simp; ring
  rw [q, div_sub_div _ _ hd0.ne' hD.ne', abs_div, abs_of_pos (mul_pos hd0 hD), div_mul_div_comm, div_le_div_iff₀ (mul_pos hd0 hD) (mul_pos h1 hD)]
  have e : |a * D - d * A| ≤ 2 * δ * A * D := by
    rw [show a * D - d * A = (a - A) * D + A * (D - d) by ring]
    refine (abs_add_le _ _).trans ?_
    rw [abs_mul, abs_mul, abs_of_pos hD, abs_of_nonneg hA, abs_sub_comm D d]
    have := mul_le_mul_of_nonneg_right ha hD.le
    have := mul_le_mul_of_nonneg_left hd hA
    linarith
  have e2 : (1 - δ) * D ≤ d := by linarith
  have n0 : 0 ≤ 2 * δ * A := by positivity
  calc |a * D - d * A| * ((1 - δ) * D) ≤ 2 * δ * A * D * ((1 - δ) * D) := mul_le_mul_of_nonneg_right e (by positivity)
    _ ≤ 2 * δ * A * D * d := mul_le_mul_of_nonneg_left e2 (by positivity)
    _ = 2 * δ * A * (d * D) := by ring

theorem one_le_quot {δ : α} (hδ : 0 ≤ δ) (hδ1 : δ < 1) (n : ℕ) : 1 ≤ (1 + δ) ^ n / (1 - δ) := by
  rw [le_div_iff₀ (by linarith)]
  have := one_le_gamma hδ n
  linarith

/-- The computed hull of ReLU is close to the hull of the same bounds; its lower line is close to some line below ReLU. -/
theorem hull_close (hδ : 0 ≤ δ) (hδ1 : δ < 1) (h : RelError rd δ) {eps : α} (he : 0 < eps) (sl : Slope) (u l : α) :
    |(roundedHullRelu rd eps sl u l).wu - (linearHullRelu eps sl 1 u l).wu| ≤ ((1 + δ) ^ 2 / (1 - δ) - 1) * 1 ∧
    |(roundedHullRelu rd eps sl u l).bu - (linearHullRelu eps sl 1 u l).bu| ≤ ((1 + δ) ^ 4 / (1 - δ) - 1) * |l| ∧
    |(linearHullRelu eps sl 1 u l).bu| ≤ |l| ∧
    (∃ c, 0 ≤ c ∧ c ≤ 1 ∧ |(roundedHullRelu rd eps sl u l).wl - c| ≤ ((1 + δ) ^ 2 / (1 - δ) - 1) * 1) ∧ (roundedHullRelu rd eps sl u l).bl = 0 := by
  have q2 : 0 ≤ (1 + δ) ^ 2 / (1 - δ) - 1 := sub_nonneg.2 (one_le_quot hδ hδ1 2)
  have q4 : 0 ≤ (1 + δ) ^ 4 / (1 - δ) - 1 := sub_nonneg.2 (one_le_quot hδ hδ1 4)
  rcases le_or_gt 0 l with hl | hl
  · have e : roundedHullRelu rd eps sl u l = ⟨1, 0, 1, 0⟩ := by simp [roundedHullRelu, indexLinear_of_nonneg hl]
    rw [hullRelu_linear sl hl, e]
    refine ⟨by simpa using q2, by simpa using mul_nonneg q4 (abs_nonneg l), by simp, ⟨1, by simp, le_rfl, by simpa using q2⟩, rfl⟩
  rcases le_or_gt u 0 with hu | hu
  · have e : roundedHullRelu rd eps sl u l = ⟨0, 0, 0, 0⟩ := by simp [roundedHullRelu, indexLinear_of_neg hl, indexDead_of_nonpos hu]
    rw [hullRelu_dead sl hu hl, e]
    refine ⟨by simpa using q2, by simpa using mul_nonneg q4 (abs_nonneg l), by simp, ⟨0, le_rfl, by simp, by simpa using q2⟩, rfl⟩
  · obtain ⟨h1, h2, -⟩ := hullRelu_active sl he (zero_le_one) le_rfl hu hl (g := 1)
    obtain ⟨⟨w0, w1⟩, -⟩ := hullRelu_unit (eps := eps) (g := 1) u l sl he zero_le_one le_rfl
    rw [h1] at w0 w1
    rw [h1, h2]
    have hD : 0 < max eps (u - l) := lt_max_of_lt_left he
    have n1 : |rd u - u| ≤ δ * u := by simpa [abs_of_pos hu] using h u
    have n2 : |max eps (rd (u - l)) - max eps (u - l)| ≤ δ * max eps (u - l) := by
      rw [max_comm eps, max_comm eps]
      refine (abs_max_sub_max_le_abs _ _ _).trans ((h _).trans (mul_le_mul_of_nonneg_left ?_ hδ))
      rw [abs_of_pos (by linarith : 0 < u - l)]
      exact le_max_left _ _
    have n3 := div_close hδ hδ1 hu.le hD n1 n2
    set A := u / max eps (u - l) with hA
    have n4 : |rd (rd u / max eps (rd (u - l))) - A| ≤ ((1 + δ) ^ 2 / (1 - δ) - 1) * 1 := by
      have := rd_step hδ h (n3.trans (mul_le_mul_of_nonneg_left w1 (by simpa using sub_nonneg.2 (one_le_quot hδ hδ1 1)))) (show |A| ≤ 1 by rwa [abs_of_nonneg w0])
      rwa [show (1 + δ) / (1 - δ) * (1 + δ) = (1 + δ) ^ 2 / (1 - δ) by ring] at this
    have al : rd (rd (relu u - relu l) / max eps (rd (u - l))) = rd (rd u / max eps (rd (u - l))) := by
      rw [relu_of_nonneg hu.le, relu_of_nonpos hl.le, sub_zero]
    set B := rd (rd u / max eps (rd (u - l))) with hB
    have hA1 : |A * l| ≤ 1 * |l| := by rw [abs_mul, abs_of_nonneg w0]; exact mul_le_mul_of_nonneg_right w1 (abs_nonneg _)
    have n5 := rd_step hδ h (mul_close n4 (by simpa using q2) (le_refl |l|)) hA1
    have n6 : |(-rd (B * l)) - (-(A * l))| ≤ ((1 + δ) ^ 2 / (1 - δ) * (1 + δ) - 1) * (1 * |l|) := by
      rw [neg_sub_neg, abs_sub_comm]; exact n5
    have n7 := rd_step hδ h n6 (by rwa [abs_neg])
    have di : indexDead u = 0 := indexDead_of_pos hu
    have li : indexLinear l = 0 := indexLinear_of_neg hl
    refine ⟨by simpa [roundedHullRelu, di, li, al, ← hB] using n4, ?_, ?_, ?_, rfl⟩
    · simp only [roundedHullRelu, di, li, al, sub_zero, one_mul]
      rw [relu_of_nonpos hl.le, zero_sub, neg_mul]
      rwa [one_mul, show (1 + δ) ^ 2 / (1 - δ) * (1 + δ) * (1 + δ) = (1 + δ) ^ 4 / (1 - δ) by ring] at n7
    · rw [neg_mul, abs_neg]; simpa using hA1
    · simp only [roundedHullRelu, di, li, al, ← hB, sub_zero, one_mul, add_zero]
      have tri : ∀ x : α, ksign x = -1 ∨ ksign x = 0 ∨ ksign x = 1 := fun x => by unfold ksign; split_ifs <;> simp
      cases sl with
      | vSlope =>
        refine ⟨_, ?_, ?_, by rw [sub_self, abs_zero]; linarith⟩
        · rcases tri (rd (u + l)) with e | e | e <;> rw [e] <;> norm_num [kclip]
        · rcases tri (rd (u + l)) with e | e | e <;> rw [e] <;> norm_num [kclip]
      | aSlope =>
        refine ⟨_, ?_, ?_, by rw [sub_self, abs_zero]; linarith⟩
        · rcases tri (rd (B - 1 / 2)) with e | e | e <;> rw [e] <;> norm_num [kclip]
        · rcases tri (rd (B - 1 / 2)) with e | e | e <;> rw [e] <;> norm_num [kclip]
      | zSlope => exact ⟨0, le_rfl, zero_le_one, by rw [sub_self, abs_zero]; linarith⟩
      | oSlope => exact ⟨1, zero_le_one, le_rfl, by rw [sub_self, abs_zero]; linarith⟩
      | sSlope => exact ⟨A, w0, w1, n4⟩

theorem float_relu (hδ : 0 ≤ δ) (hδ1 : δ < 1) (h : RelError rd δ) {eps : α} (he : 0 < eps) {sl : Slope} {f g : Full (BoxOf ι α) ι κ α}
    (hg : ReluRounded rd eps sl f g) {R : Set (ι → α)} (hD : boxDomain.Sound f.x R) {p X : ι → α} (hR : p ∈ R) (hX : ∀ i, |f.x.1 i| ≤ X i ∧ |f.x.2 i| ≤ X i)
    (hp : ∀ i, |p i| ≤ X i) {y s M : κ → α} (hs : ∀ k, 0 ≤ s k) (v : Near .affine f p y s) (hM : ∀ k, f.sizeAff X k ≤ M k) :
    (∀ k, g.sizeAff X k ≤ reluGrow δ (Fintype.card ι) * M k) ∧
      Near .affine g p (fun k => relu (y k)) (fun k => 2 * s k + eps / 4 + reluLoss δ (Fintype.card ι) * M k) := by
  obtain ⟨u, l, hu, hl, -, hg⟩ := hg
  have hX0 : ∀ i, 0 ≤ X i := fun i => (abs_nonneg _).trans (hp i)
  have M0 : ∀ k, 0 ≤ M k := fun k => (sizeAff_nonneg f hX0 k).trans (hM k)
  have g0 : 0 ≤ (1 + δ) ^ (Fintype.card ι + 2) - 1 := gamma_nonneg hδ _
  have szu : ∀ k, (∑ i, |f.wu i k| * X i) + |f.bu k| ≤ M k := fun k => (add_le_add (Finset.sum_le_sum fun i _ =>
    mul_le_mul_of_nonneg_right (le_max_left _ _) (hX0 i)) (le_max_left _ _)).trans (hM k)
  have szl : ∀ k, (∑ i, |f.wl i k| * X i) + |f.bl k| ≤ M k := fun k => (add_le_add (Finset.sum_le_sum fun i _ =>
    mul_le_mul_of_nonneg_right (le_max_right _ _) (hX0 i)) (le_max_right _ _)).trans (hM k)
  have eu : ∀ k, |u k - boxDomain.getUpper f.x (fun i => f.wu i k) (f.bu k)| ≤ ((1 + δ) ^ (Fintype.card ι + 2) - 1) * M k := fun k => by
    obtain ⟨d, hd, e⟩ := hu k
    rw [e]
    exact (box_sum_error hδ h f.x.2 f.x.1 _ X _ d (fun i => (hX i).2) (fun i => (hX i).1) hd).1.trans (mul_le_mul_of_nonneg_left (szu k) g0)
  have el : ∀ k, |l k - boxDomain.getLower f.x (fun i => f.wl i k) (f.bl k)| ≤ ((1 + δ) ^ (Fintype.card ι + 2) - 1) * M k ∧
      |boxDomain.getLower f.x (fun i => f.wl i k) (f.bl k)| ≤ M k := fun k => by
    obtain ⟨d, hd, e⟩ := hl k
    rw [e]
    have q := box_sum_error hδ h f.x.1 f.x.2 (fun i => f.wl i k) X (f.bl k) d (fun i => (hX i).1) (fun i => (hX i).2) hd
    exact ⟨q.1.trans (mul_le_mul_of_nonneg_left (szl k) g0), q.2.trans (szl k)⟩
  have la : ∀ k, |l k| ≤ (1 + δ) ^ (Fintype.card ι + 2) * M k := fun k => abs_of_close (el k).1 (el k).2
  have hc : ∀ k, l k - (s k + ((1 + δ) ^ (Fintype.card ι + 2) - 1) * M k) ≤ y k ∧ y k ≤ u k + (s k + ((1 + δ) ^ (Fintype.card ι + 2) - 1) * M k) := fun k => by
    have h1 := near_tighten_const boxDomain .affine f R hD p hR y s v k
    simp only [Full.tighten] at h1
    have h2 := abs_le.1 (eu k)
    have h3 := abs_le.1 (el k).1
    simp at h1
    constructor <;> linarith
  have H := fun k => hull_close hδ hδ1 h he sl (u k) (l k)
  choose c c0 c1 hcl using fun k => (H k).2.2.2.1
  have q3 : 0 ≤ (1 + δ) ^ 2 / (1 - δ) - 1 := sub_nonneg.2 (one_le_quot hδ hδ1 2)
  have hd1 : 0 < 1 - δ := by linarith
  have up : ∀ n : ℕ, n ≤ 5 → (1 + δ) ^ n / (1 - δ) ≤ (1 + δ) ^ 5 / (1 - δ) := fun n hn =>
    div_le_div_of_nonneg_right (pow_le_pow_right₀ (by linarith) hn) hd1.le
  -- the tensors of the exact products with the hull of the computed bounds
  have key : Near .affine { f with
      wu := fun i k => (linearHullRelu eps sl 1 (u k) (l k)).wu * f.wu i k
      bu := fun k => (linearHullRelu eps sl 1 (u k) (l k)).wu * f.bu k + (linearHullRelu eps sl 1 (u k) (l k)).bu
      wl := fun i k => c k * f.wl i k
      bl := fun k => c k * f.bl k + 0 } p (fun k => relu (y k)) (fun k => 2 * s k + eps / 4 + ((1 + δ) ^ (Fintype.card ι + 2) - 1) * M k) := by
    refine ⟨fun hi => absurd hi (by simp [getIbp]), fun ha k => ?_⟩
    obtain ⟨⟨a1, a2⟩, -⟩ := hullRelu_unit (eps := eps) (g := 1) (u k) (l k) sl he zero_le_one le_rfl
    have tn : 0 ≤ ((1 + δ) ^ (Fintype.card ι + 2) - 1) * M k := mul_nonneg g0 (M0 k)
    have w1 := hullRelu_upper_near sl he (zero_le_one (α := α)) le_rfl (add_nonneg (hs k) tn) (hc k).1 (hc k).2
    have z := v.aff ha k
    have e : ∀ (c b : α) (w : ι → α) (b0 : α), affEval (fun i => c * w i) (c * b0 + b) p = c * affEval w b0 p + b := fun c b w b0 => by
      simp only [affEval, mul_add, Finset.mul_sum]
      rw [add_assoc]
      congr 1
      exact Finset.sum_congr rfl fun i _ => by ring
    rw [e, e]
    have z1 := mul_le_mul_of_nonneg_left z.2 a1
    have z2 := mul_le_mul_of_nonneg_left z.1 (c0 k)
    have q1 := mul_le_mul_of_nonneg_right a2 (hs k)
    have q2 := mul_le_mul_of_nonneg_right (c1 k) (hs k)
    have r1 : c k * y k ≤ relu (y k) := by
      rcases le_total 0 (y k) with hy | hy
      · rw [relu_of_nonneg hy]; nlinarith [c1 k]
      · rw [relu_of_nonpos hy]; nlinarith [c0 k]
    have := hs k
    constructor <;> linarith
  have step : ∀ {a A x : α}, |a - A| ≤ ((1 + δ) ^ 2 / (1 - δ) - 1) * 1 → 0 ≤ A → A ≤ 1 →
      |rd (a * x) - A * x| ≤ ((1 + δ) ^ 3 / (1 - δ) - 1) * |x| ∧ |A * x| ≤ |x| := fun {a A x} ha h0 h1 => by
    have q : |A * x| ≤ 1 * |x| := by rw [abs_mul, abs_of_nonneg h0]; exact mul_le_mul_of_nonneg_right h1 (abs_nonneg _)
    have := rd_step hδ h (mul_close ha (by simpa using q3) (le_refl |x|)) q
    rw [one_mul] at this q
    rw [show (1 + δ) ^ 2 / (1 - δ) * (1 + δ) = (1 + δ) ^ 3 / (1 - δ) by ring] at this
    exact ⟨this, q⟩
  have wk : ∀ {a A x S : α} (n : ℕ), n ≤ 5 → |a - A| ≤ ((1 + δ) ^ n / (1 - δ) - 1) * x → |A| ≤ x → x ≤ S →
      |a - A| ≤ ((1 + δ) ^ 5 / (1 - δ) - 1) * S ∧ |A| ≤ S := fun {a A x S} n hn h1 h2 h3 => by
    refine ⟨h1.trans (mul_le_mul (by linarith [up n hn]) h3 ((abs_nonneg _).trans h2) ?_), h2.trans h3⟩
    exact sub_nonneg.2 (one_le_quot hδ hδ1 5)
  have fin := close_step (g := g) (M := fun k => (1 + (1 + δ) ^ (Fintype.card ι + 2)) * M k) hX0 key hp ((1 + δ) ^ 5 / (1 - δ)) (one_le_quot hδ hδ1 5)
    (fun i k => max |f.wu i k| |f.wl i k|) (fun k => max |f.bu k| |f.bl k| + |l k|) (fun i k => ?_) (fun k => ?_) fun k => ?_
  · refine ⟨fun k => ?_, fin.2.congr (fun _ => rfl) fun k => ?_⟩
    · rw [reluGrow, mul_assoc]; exact fin.1 k
    · rw [reluLoss]; ring
  · obtain ⟨⟨a1, a2⟩, -⟩ := hullRelu_unit (eps := eps) (g := 1) (u k) (l k) sl he zero_le_one le_rfl
    have x1 := step (x := f.wu i k) (H k).1 a1 a2
    have x2 := step (x := f.wl i k) (hcl k) (c0 k) (c1 k)
    rw [((hg k).1 i).1, ((hg k).1 i).2]
    exact ⟨wk 3 (by norm_num) x1.1 x1.2 (le_max_left _ _), wk 3 (by norm_num) x2.1 x2.2 (le_max_right _ _)⟩
  · obtain ⟨⟨a1, a2⟩, -⟩ := hullRelu_unit (eps := eps) (g := 1) (u k) (l k) sl he zero_le_one le_rfl
    have x1 := step (x := f.bu k) (H k).1 a1 a2
    have x2 := step (x := f.bl k) (hcl k) (c0 k) (c1 k)
    rw [(hg k).2.1, (hg k).2.2, (H k).2.2.2.2]
    have up4 : (1 + δ) ^ 3 / (1 - δ) ≤ (1 + δ) ^ 4 / (1 - δ) := div_le_div_of_nonneg_right (pow_le_pow_right₀ (by linarith) (by norm_num)) hd1.le
    have e45 : (1 + δ) ^ 4 / (1 - δ) * (1 + δ) = (1 + δ) ^ 5 / (1 - δ) := by ring
    have y1 := rd_add hδ h (c := (1 + δ) ^ 4 / (1 - δ)) (x1.1.trans (mul_le_mul_of_nonneg_right (by linarith) (abs_nonneg _))) (H k).2.1 x1.2 (H k).2.2.1
    have y2 := rd_add hδ h (c := (1 + δ) ^ 4 / (1 - δ)) (b := 0) (B := 0) (SB := |l k|)
      (x2.1.trans (mul_le_mul_of_nonneg_right (by linarith) (abs_nonneg _)))
      (by rw [sub_self, abs_zero]; exact mul_nonneg (sub_nonneg.2 (one_le_quot hδ hδ1 4)) (abs_nonneg _)) x2.2 (by rw [abs_zero]; exact abs_nonneg _)
    rw [e45] at y1 y2
    exact ⟨wk 5 le_rfl y1 ((abs_add_le _ _).trans (add_le_add x1.2 (H k).2.2.1)) (add_le_add (le_max_left _ _) le_rfl),
      wk 5 le_rfl y2 ((abs_add_le _ _).trans (add_le_add x2.2 (by rw [abs_zero]; exact abs_nonneg _))) (add_le_add (le_max_right _ _) le_rfl)⟩
  · have := hM k
    have := la k
    rw [Full.sizeAff] at *
    linarith

theorem float_batchNorm [Fintype κ] (eps : α) (he : 0 < eps) (sl : Slope) (gamma beta mean sd : κ → α) (hsd : ∀ k, 0 < sd k) {bn : α} (hbn : 0 ≤ bn)
    {f g : Full (BoxOf ι α) ι κ α} (hg : (Lay.batchNorm gamma beta mean sd).RoundedAffine rd eps sl bn f g) {R : Set (ι → α)} (hD : boxDomain.Sound f.x R)
    {p X : ι → α} (hR : p ∈ R) (hX : ∀ i, 0 ≤ X i) (hp : ∀ i, |p i| ≤ X i) {y s M : κ → α} (hs : ∀ k, 0 ≤ s k) (v : Near .affine f p y s)
    (hM : ∀ k, f.sizeAff X k ≤ M k) (n : ℕ) :
    (∀ k, g.sizeAff X k ≤ (Lay.batchNorm gamma beta mean sd).growAff δ bn n M k) ∧ Near .affine g p ((Lay.batchNorm gamma beta mean sd).eval y)
      (fun k => (Lay.batchNorm gamma beta mean sd).spreadTol eps s k + (Lay.batchNorm gamma beta mean sd).lossAff δ bn n M k) := by
  have key := (Lay.batchNorm gamma beta mean sd).forward_spread boxDomain .affine he sl hsd hD hR hs v
  obtain ⟨-, hg⟩ := hg
  have sp : ∀ k (a b c : α), |a| ≤ c → |b| ≤ c → |max 0 (gamma k) * (a / sd k) + min 0 (gamma k) * (b / sd k)| ≤ |gamma k| / sd k * c := fun k a b c ha hb => by
    have q : ∀ x : α, |gamma k * (x / sd k)| = |gamma k| / sd k * |x| := fun x => by
      rw [abs_mul, abs_div, abs_of_pos (hsd k)]; ring
    have n0 : 0 ≤ |gamma k| / sd k := div_nonneg (abs_nonneg _) (hsd k).le
    rcases le_total 0 (gamma k) with w | w
    · rw [max_eq_right w, min_eq_left w, zero_mul, add_zero, q]
      exact mul_le_mul_of_nonneg_left ha n0
    · rw [max_eq_left w, min_eq_right w, zero_mul, zero_add, q]
      exact mul_le_mul_of_nonneg_left hb n0
  have sb : ∀ k (a b c : α), |a| ≤ c → |b| ≤ c →
      |max 0 (gamma k) * ((a - mean k) / sd k) + min 0 (gamma k) * ((b - mean k) / sd k) + beta k| ≤ |gamma k| / sd k * (c + |mean k|) + |beta k| :=
    fun k a b c ha hb => (abs_add_le _ _).trans (add_le_add (sp k _ _ _ ((abs_sub _ _).trans (add_le_add ha le_rfl)) ((abs_sub _ _).trans (add_le_add hb le_rfl))) le_rfl)
  refine close_step hX key hp (1 + bn) (by linarith) (fun i k => |gamma k| / sd k * max |f.wu i k| |f.wl i k|)
    (fun k => |gamma k| / sd k * (max |f.bu k| |f.bl k| + |mean k|) + |beta k|) (fun i k => ⟨⟨?_, ?_⟩, ?_, ?_⟩) (fun k => ⟨⟨?_, ?_⟩, ?_, ?_⟩) (fun k => ?_) |>.imp id
    fun q => q.congr (fun _ => rfl) fun k => by simp only [Lay.lossAff]; ring
  · rw [add_sub_cancel_left]; exact ((hg k).1 i).1
  · simp only [Lay.forward, batchNormT, tighten_affine, getAffine, if_true]
    exact sp k _ _ _ (le_max_left _ _) (le_max_right _ _)
  · rw [add_sub_cancel_left]; exact ((hg k).1 i).2
  · simp only [Lay.forward, batchNormT, tighten_affine, getAffine, if_true]
    exact sp k _ _ _ (le_max_right _ _) (le_max_left _ _)
  · rw [add_sub_cancel_left]; exact (hg k).2.1
  · simp only [Lay.forward, batchNormT, tighten_affine, getAffine, if_true]
    exact sb k _ _ _ (le_max_left _ _) (le_max_right _ _)
  · rw [add_sub_cancel_left]; exact (hg k).2.2
  · simp only [Lay.forward, batchNormT, tighten_affine, getAffine, if_true]
    exact sb k _ _ _ (le_max_right _ _) (le_max_left _ _)
  · have n0 : 0 ≤ |gamma k| / sd k := div_nonneg (abs_nonneg _) (hsd k).le
    have := mul_le_mul_of_nonneg_left (hM k) n0
    have e : ∑ i, |gamma k| / sd k * max |f.wu i k| |f.wl i k| * X i = |gamma k| / sd k * ∑ i, max |f.wu i k| |f.wl i k| * X i := by
      rw [Finset.mul_sum]
      exact Finset.sum_congr rfl fun i _ => mul_assoc _ _ _
    rw [e]
    rw [Full.sizeAff] at this
    linarith

theorem Lay.RoundedAffine.x [Fintype κ] {eps : α} {sl : Slope} {bn : α} {l : Lay α κ κ'} {f : Full (BoxOf ι α) ι κ α} {g : Full (BoxOf ι α) ι κ' α}
    (h : l.RoundedAffine rd eps sl bn f g) : g.x = f.x := by
  cases l with
  | dense => exact DenseRounded.x h
  | linear => exact LinearRounded.x h
  | relu => exact h.2.choose_spec.choose_spec.2.2.1
  | batchNorm => exact h.1
  | reshape => rw [h]; simp [reindexT]
  | skip => rw [h]

theorem Lay.float_near [Fintype κ] (hδ : 0 ≤ δ) (hδ1 : δ < 1) (h : RelError rd δ) {eps : α} (he : 0 < eps) {sl : Slope} {bn : α} (hbn : 0 ≤ bn) {l : Lay α κ κ'}
    (hl : l.WF) {f : Full (BoxOf ι α) ι κ α} {g : Full (BoxOf ι α) ι κ' α} (hg : l.RoundedAffine rd eps sl bn f g) {R : Set (ι → α)}
    (hD : boxDomain.Sound f.x R) {p X : ι → α} (hR : p ∈ R) (hX : ∀ i, |f.x.1 i| ≤ X i ∧ |f.x.2 i| ≤ X i) (hp : ∀ i, |p i| ≤ X i) {y s M : κ → α}
    (hs : ∀ k, 0 ≤ s k) (v : Near .affine f p y s) (hM : ∀ k, f.sizeAff X k ≤ M k) :
    (∀ k, g.sizeAff X k ≤ l.growAff δ bn (Fintype.card ι) M k) ∧
      Near .affine g p (l.eval y) (fun k => l.spreadTol eps s k + l.lossAff δ bn (Fintype.card ι) M k) := by
  have hX0 : ∀ i, 0 ≤ X i := fun i => (abs_nonneg _).trans (hp i)
  cases l with
  | dense kernel bias => exact float_dense hδ h eps he sl kernel bias hg hD hR hX0 hp hs v hM bn _
  | linear L kernel bias => exact float_linear hδ h eps he sl L kernel bias hg hD hR hX0 hp hs v hM bn _
  | relu gf gb => exact float_relu hδ hδ1 h he hg.2 hD hR hX hp hs v hM
  | batchNorm gamma beta mean sd => exact float_batchNorm eps he sl gamma beta mean sd hl hbn hg hD hR hX0 hp hs v hM _
  | reshape e =>
    have key := (Lay.reshape (α := α) e).forward_spread boxDomain .affine he sl trivial hD hR hs v
    simp only [Lay.RoundedAffine] at hg
    subst hg
    refine ⟨fun k => ?_, key.congr (fun _ => rfl) fun k => by simp [Lay.lossAff]⟩
    have q := hM (e k)
    simpa only [Full.sizeAff, reindexT, tighten_affine, getAffine, if_true, Lay.growAff] using q
  | skip =>
    simp only [Lay.RoundedAffine] at hg
    subst hg
    exact ⟨hM, v.congr (fun _ => rfl) fun k => by simp [Lay.lossAff, Lay.spreadTol]⟩

theorem tighten_affine' {X : Type} (D : PertDomain X ι α) (f : Full X ι κ α) :
    (f.tighten D .affine true true).wu = f.wu ∧ (f.tighten D .affine true true).wl = f.wl ∧ (f.tighten D .affine true true).bu = f.bu ∧
      (f.tighten D .affine true true).bl = f.bl := by simp [Full.tighten]

theorem float_add (hδ : 0 ≤ δ) (h : RelError rd δ) {f0 f1 g : Full (BoxOf ι α) ι κ α} (hg : AddRounded rd f0 f1 g) {R : Set (ι → α)}
    (h0 : boxDomain.Sound f0.x R) (h1 : boxDomain.Sound f1.x R) {p X : ι → α} (hR : p ∈ R) (hX : ∀ i, 0 ≤ X i) (hp : ∀ i, |p i| ≤ X i)
    {y0 y1 s0 s1 M0 M1 : κ → α} (v0 : Near .affine f0 p y0 s0) (v1 : Near .affine f1 p y1 s1) (hM0 : ∀ k, f0.sizeAff X k ≤ M0 k)
    (hM1 : ∀ k, f1.sizeAff X k ≤ M1 k) :
    (∀ k, g.sizeAff X k ≤ (1 + δ) * (M0 k + M1 k)) ∧ Near .affine g p (fun k => y0 k + y1 k) (fun k => s0 k + s1 k + δ * (M0 k + M1 k)) := by
  have key := near_add boxDomain .affine f0 f1 R h0 h1 p hR y0 y1 s0 s1 v0 v1
  have e0 := tighten_affine' boxDomain f0
  have e1 := tighten_affine' boxDomain f1
  have st : ∀ a b c d : α, |a| ≤ c → |b| ≤ d → |rd (a + b) - (a + b)| ≤ (1 + δ - 1) * (c + d) ∧ |a + b| ≤ c + d := fun a b c d ha hb => by
    have := (abs_add_le a b).trans (add_le_add ha hb)
    exact ⟨by rw [add_sub_cancel_left]; exact (h _).trans (mul_le_mul_of_nonneg_left this hδ), this⟩
  refine (close_step hX key hp (1 + δ) (by linarith) (fun i k => max |f0.wu i k| |f0.wl i k| + max |f1.wu i k| |f1.wl i k|)
    (fun k => max |f0.bu k| |f0.bl k| + max |f1.bu k| |f1.bl k|) (fun i k => ?_) (fun k => ?_) fun k => ?_).imp id
    fun q => q.congr (fun _ => rfl) fun k => by ring
  · rw [hg.wu, hg.wl]
    simp only [addT, e0.1, e0.2.1, e1.1, e1.2.1]
    exact ⟨st _ _ _ _ (le_max_left _ _) (le_max_left _ _), st _ _ _ _ (le_max_right _ _) (le_max_right _ _)⟩
  · rw [hg.bu, hg.bl]
    simp only [addT, e0.2.2.1, e0.2.2.2, e1.2.2.1, e1.2.2.2]
    exact ⟨st _ _ _ _ (le_max_left _ _) (le_max_left _ _), st _ _ _ _ (le_max_right _ _) (le_max_right _ _)⟩
  · have a0 := hM0 k
    have a1 := hM1 k
    simp only [Full.sizeAff] at a0 a1
    simp only [add_mul, Finset.sum_add_distrib]
    linarith

theorem float_average (hδ : 0 ≤ δ) (h : RelError rd δ) {eps : α} (he : 0 < eps) {f0 f1 g : Full (BoxOf ι α) ι κ α} (hg : AverageRounded rd f0 f1 g)
    {R : Set (ι → α)} (h0 : boxDomain.Sound f0.x R) (h1 : boxDomain.Sound f1.x R) {p X : ι → α} (hR : p ∈ R) (hX : ∀ i, 0 ≤ X i) (hp : ∀ i, |p i| ≤ X i)
    {y0 y1 s0 s1 M0 M1 : κ → α} (hs0 : ∀ k, 0 ≤ s0 k) (hs1 : ∀ k, 0 ≤ s1 k) (v0 : Near .affine f0 p y0 s0) (v1 : Near .affine f1 p y1 s1)
    (hM0 : ∀ k, f0.sizeAff X k ≤ M0 k) (hM1 : ∀ k, f1.sizeAff X k ≤ M1 k) :
    (∀ k, g.sizeAff X k ≤ (1 + δ) ^ 2 * ((M0 k + M1 k) / 2)) ∧
      Near .affine g p (fun k => MergeOp.average.eval (y0 k) (y1 k)) (fun k => (s0 k + s1 k) / 2 + ((1 + δ) ^ 2 - 1) * ((M0 k + M1 k) / 2)) := by
  have sc : ∀ s : κ → α, (fun k => eps * (s k / eps)) = s := fun s => funext fun k => by field_simp
  have key := MergeOp.average.forward_near boxDomain .affine eps he (by decide) f0 f1 R h0 h1 p hR y0 y1 (fun k => s0 k / eps) (fun k => s1 k / eps)
    (fun k => div_nonneg (hs0 k) he.le) (fun k => div_nonneg (hs1 k) he.le) (by rwa [sc]) (by rwa [sc])
  have st : ∀ a b c d : α, |a| ≤ c → |b| ≤ d → |rd (rd (a + b) / 2) - (a + b) / 2| ≤ ((1 + δ) ^ 2 - 1) * ((c + d) / 2) ∧ |(a + b) / 2| ≤ (c + d) / 2 :=
    fun a b c d ha hb => by
    have q := (abs_add_le a b).trans (add_le_add ha hb)
    have q2 : |(a + b) / 2| ≤ (c + d) / 2 := by rw [abs_div, abs_two]; gcongr
    refine ⟨?_, q2⟩
    have q3 : |rd (a + b) / 2 - (a + b) / 2| ≤ (1 + δ - 1) * ((c + d) / 2) := by
      rw [← sub_div, abs_div, abs_two, add_sub_cancel_left, ← mul_div_assoc]
      gcongr
      exact (h _).trans (mul_le_mul_of_nonneg_left q hδ)
    have q4 := rd_step hδ h q3 q2
    rwa [← sq] at q4
  refine (close_step hX key hp ((1 + δ) ^ 2) (one_le_gamma hδ 2) (fun i k => (max |f0.wu i k| |f0.wl i k| + max |f1.wu i k| |f1.wl i k|) / 2)
    (fun k => (max |f0.bu k| |f0.bl k| + max |f1.bu k| |f1.bl k|) / 2) (fun i k => ?_) (fun k => ?_) fun k => ?_).imp id
    fun q => q.congr (fun _ => rfl) fun k => by simp only [MergeOp.gain]; field_simp
  · rw [hg.wu, hg.wl]
    simp only [MergeOp.forward, averageLayerT, tighten_affine, getAffine, if_true, List.map_cons, List.map_nil, List.sum_cons, List.sum_nil, add_zero,
      List.length_cons, List.length_nil, zero_add, Nat.reduceAdd, Nat.cast_ofNat]
    exact ⟨st _ _ _ _ (le_max_left _ _) (le_max_left _ _), st _ _ _ _ (le_max_right _ _) (le_max_right _ _)⟩
  · rw [hg.bu, hg.bl]
    simp only [MergeOp.forward, averageLayerT, tighten_affine, getAffine, if_true, List.map_cons, List.map_nil, List.sum_cons, List.sum_nil, add_zero,
      List.length_cons, List.length_nil, zero_add, Nat.reduceAdd, Nat.cast_ofNat]
    exact ⟨st _ _ _ _ (le_max_left _ _) (le_max_left _ _), st _ _ _ _ (le_max_right _ _) (le_max_right _ _)⟩
  · have a0 := hM0 k
    have a1 := hM1 k
    simp only [Full.sizeAff] at a0 a1
    have e : ∑ i, (max |f0.wu i k| |f0.wl i k| + max |f1.wu i k| |f1.wl i k|) / 2 * X i =
        (∑ i, max |f0.wu i k| |f0.wl i k| * X i + ∑ i, max |f1.wu i k| |f1.wl i k| * X i) / 2 := by
      rw [← Finset.sum_add_distrib, Finset.sum_div]
      exact Finset.sum_congr rfl fun i _ => by ring
    rw [e]
    linarith

theorem minus_x {X : Type} (D : PertDomain X ι α) (m : Mode) (f : Full X ι κ α) : (minusT D m f).x = f.x := by simp [minusT]

theorem minus_size (f : Full (BoxOf ι α) ι κ α) (X : ι → α) (k : κ) : (minusT boxDomain .affine f).sizeAff X k = f.sizeAff X k := by
  have e : f.tighten boxDomain .affine false false = f := by simp [Full.tighten]
  simp only [Full.sizeAff, minusT, e, abs_neg, max_comm]

theorem MaxRounded.x {eps : α} {f0 f1 g : Full (BoxOf ι α) ι κ α} (h : MaxRounded rd eps f0 f1 g) : g.x = f1.x := by
  obtain ⟨d, r, h1, h2, h3⟩ := h
  rw [h3.x, h2.choose_spec.choose_spec.2.2.1, h1.x]

theorem float_max (hδ : 0 ≤ δ) (hδ1 : δ < 1) (h : RelError rd δ) {eps : α} (he : 0 < eps) {f0 f1 g : Full (BoxOf ι α) ι κ α} (hg : MaxRounded rd eps f0 f1 g)
    {R : Set (ι → α)} (h0 : boxDomain.Sound f0.x R) (h1 : boxDomain.Sound f1.x R) {p X : ι → α} (hR : p ∈ R)
    (hX : ∀ i, |f1.x.1 i| ≤ X i ∧ |f1.x.2 i| ≤ X i) (hp : ∀ i, |p i| ≤ X i) {y0 y1 s0 s1 M0 M1 : κ → α} (hs0 : ∀ k, 0 ≤ s0 k)
    (hs1 : ∀ k, 0 ≤ s1 k) (v0 : Near .affine f0 p y0 s0) (v1 : Near .affine f1 p y1 s1) (hM0 : ∀ k, f0.sizeAff X k ≤ M0 k)
    (hM1 : ∀ k, f1.sizeAff X k ≤ M1 k) :
    (∀ k, g.sizeAff X k ≤ MergeOp.maximum.growAff δ (Fintype.card ι) (M0 k) (M1 k)) ∧
      Near .affine g p (fun k => max (y0 k) (y1 k)) (fun k => MergeOp.maximum.slackAff δ eps (Fintype.card ι) (M0 k) (M1 k) (s0 k) (s1 k)) := by
  obtain ⟨d, r, a1, a2, a3⟩ := hg
  have hX0 : ∀ i, 0 ≤ X i := fun i => (abs_nonneg _).trans (hp i)
  have m0 : ∀ k, 0 ≤ M0 k := fun k => (sizeAff_nonneg f0 hX0 k).trans (hM0 k)
  have m1 : ∀ k, 0 ≤ M1 k := fun k => (sizeAff_nonneg f1 hX0 k).trans (hM1 k)
  have b1 := float_add hδ h a1 h1 (by rw [minus_x]; exact h0) hR hX0 hp v1 (near_minus boxDomain .affine f0 p y0 s0 v0) hM1
    (fun k => (minus_size f0 X k).trans_le (hM0 k))
  have hd : boxDomain.Sound d.x R := by rw [a1.x]; exact h1
  have b2 := float_relu hδ hδ1 h he a2 hd hR (by rw [a1.x]; exact hX) hp
    (fun k => add_nonneg (add_nonneg (hs1 k) (hs0 k)) (mul_nonneg hδ (add_nonneg (m1 k) (m0 k)))) b1.2 b1.1
  have hr : r.x = d.x := a2.choose_spec.choose_spec.2.2.1
  have b3 := float_add hδ h a3 (by rw [hr]; exact hd) h0 hR hX0 hp b2.2 v0 b2.1 hM0
  refine ⟨b3.1, b3.2.congr (fun k => ?_) fun k => ?_⟩
  · rw [relu, max_comm (y0 k), max_add]
    simp
  · simp only [MergeOp.slackAff]

theorem MergeOp.RoundedAffine.x {eps : α} {op : MergeOp} {f0 f1 g : Full (BoxOf ι α) ι κ α} (hx : f0.x = f1.x) (h : op.RoundedAffine rd eps f0 f1 g) : g.x = f0.x := by
  cases op with
  | add => exact AddRounded.x h
  | subtract => exact AddRounded.x h
  | average => exact AverageRounded.x h
  | maximum => exact (MaxRounded.x h).trans hx.symm
  | minimum =>
    obtain ⟨g', h1, rfl⟩ := h
    rw [minus_x, h1.x, minus_x, hx]
  | multiply => exact h.elim

theorem MergeOp.float_near (hδ : 0 ≤ δ) (hδ1 : δ < 1) (h : RelError rd δ) {eps : α} (he : 0 < eps) {op : MergeOp} {f0 f1 g : Full (BoxOf ι α) ι κ α}
    (hg : op.RoundedAffine rd eps f0 f1 g) {R : Set (ι → α)} (h0 : boxDomain.Sound f0.x R) (h1 : boxDomain.Sound f1.x R) {p X : ι → α} (hR : p ∈ R)
    (hX : ∀ i, |f1.x.1 i| ≤ X i ∧ |f1.x.2 i| ≤ X i) (hp : ∀ i, |p i| ≤ X i) {y0 y1 s0 s1 M0 M1 : κ → α} (hs0 : ∀ k, 0 ≤ s0 k)
    (hs1 : ∀ k, 0 ≤ s1 k) (v0 : Near .affine f0 p y0 s0) (v1 : Near .affine f1 p y1 s1) (hM0 : ∀ k, f0.sizeAff X k ≤ M0 k)
    (hM1 : ∀ k, f1.sizeAff X k ≤ M1 k) :
    (∀ k, g.sizeAff X k ≤ op.growAff δ (Fintype.card ι) (M0 k) (M1 k)) ∧
      Near .affine g p (fun k => op.eval (y0 k) (y1 k)) (fun k => op.slackAff δ eps (Fintype.card ι) (M0 k) (M1 k) (s0 k) (s1 k)) := by
  have hX0 : ∀ i, 0 ≤ X i := fun i => (abs_nonneg _).trans (hp i)
  cases op with
  | add => exact float_add hδ h hg h0 h1 hR hX0 hp v0 v1 hM0 hM1
  | subtract =>
    have := float_add hδ h hg h0 (by rw [minus_x]; exact h1) hR hX0 hp v0 (near_minus boxDomain .affine f1 p y1 s1 v1) hM0 (fun k => (minus_size f1 X k).trans_le (hM1 k))
    exact ⟨this.1, this.2.congr (fun k => by simp only [MergeOp.eval, sub_eq_add_neg]) fun _ => rfl⟩
  | average => exact float_average hδ h he hg h0 h1 hR hX0 hp hs0 hs1 v0 v1 hM0 hM1
  | maximum => exact float_max hδ hδ1 h he hg h0 h1 hR hX hp hs0 hs1 v0 v1 hM0 hM1
  | minimum =>
    obtain ⟨g', h2, rfl⟩ := hg
    have := float_max hδ hδ1 h he h2 (by rw [minus_x]; exact h0) (by rw [minus_x]; exact h1) hR (by rw [minus_x]; exact hX) hp hs0 hs1
      (near_minus boxDomain .affine f0 p y0 s0 v0) (near_minus boxDomain .affine f1 p y1 s1 v1) (fun k => (minus_size f0 X k).trans_le (hM0 k))
      (fun k => (minus_size f1 X k).trans_le (hM1 k))
    refine ⟨fun k => by rw [minus_size]; exact this.1 k, (near_minus boxDomain .affine g' p _ _ this.2).congr (fun k => ?_) fun _ => rfl⟩
    simp only [MergeOp.eval, max_neg_neg, neg_neg]
  | multiply => exact hg.elim

theorem Net.RoundedAffine.x {eps : α} {sl : Slope} {bn : α} {inp : Full (BoxOf ι α) ι ι α} {κ : Type} {n : Net α ι κ} {g : Full (BoxOf ι α) ι κ α}
    (h : n.RoundedAffine rd eps sl bn inp g) : g.x = inp.x := by
  induction n with
  | input => rw [h]
  | layer n l ih =>
    obtain ⟨f, h1, h2⟩ := h
    exact (Lay.RoundedAffine.x h2).trans (ih h1)
  | merge op n0 n1 ih0 ih1 =>
    obtain ⟨f0, f1, h1, h2, h3⟩ := h
    exact (MergeOp.RoundedAffine.x ((ih0 h1).trans (ih1 h2).symm) h3).trans (ih0 h1)

theorem Lay.lossAff_nonneg [Fintype κ] (hδ : 0 ≤ δ) (hδ1 : δ < 1) {bn : α} (hbn : 0 ≤ bn) (l : Lay α κ κ') (hl : l.WF) (n : ℕ) {M : κ → α} (hM : ∀ k, 0 ≤ M k) (k : κ') :
    0 ≤ l.lossAff δ bn n M k ∧ 0 ≤ l.growAff δ bn n M k := by
  have a1 := fun j => gamma_nonneg hδ j
  have a2 := fun j => (zero_le_one (α := α)).trans (one_le_gamma hδ j)
  have a3 := sub_nonneg.2 (one_le_quot hδ hδ1 5)
  have a4 := zero_le_one.trans (one_le_quot hδ hδ1 5)
  cases l with
  | dense kernel bias =>
    have : 0 ≤ (∑ t, |kernel t k| * M t) + |bias k| := add_nonneg (Finset.sum_nonneg fun t _ => mul_nonneg (abs_nonneg _) (hM t)) (abs_nonneg _)
    exact ⟨mul_nonneg (a1 _) this, mul_nonneg (a2 _) this⟩
  | linear L kernel bias =>
    have : 0 ≤ (∑ t, |kernel (L.kidx k t)| * (L.src k t).elim 0 M) + |bias k| := by
      refine add_nonneg (Finset.sum_nonneg fun t _ => mul_nonneg (abs_nonneg _) ?_) (abs_nonneg _)
      cases L.src k t with
      | none => exact le_rfl
      | some q => exact hM q
    exact ⟨mul_nonneg (a1 _) this, mul_nonneg (a2 _) this⟩
  | relu gf gb =>
    have b : 0 ≤ 1 + (1 + δ) ^ (n + 2) := add_nonneg zero_le_one (a2 _)
    exact ⟨mul_nonneg (add_nonneg (a1 _) (mul_nonneg a3 b)) (hM k), mul_nonneg (mul_nonneg a4 b) (hM k)⟩
  | batchNorm gamma beta mean sd =>
    have : 0 ≤ |gamma k| / sd k * (M k + |mean k|) + |beta k| :=
      add_nonneg (mul_nonneg (div_nonneg (abs_nonneg _) (hl k).le) (add_nonneg (hM k) (abs_nonneg _))) (abs_nonneg _)
    exact ⟨mul_nonneg hbn this, mul_nonneg (by linarith) this⟩
  | reshape e => exact ⟨le_rfl, hM _⟩
  | skip => exact ⟨le_rfl, hM _⟩

theorem MergeOp.slackAff_nonneg (hδ : 0 ≤ δ) (hδ1 : δ < 1) {eps : α} (he : 0 < eps) (n : ℕ) (op : MergeOp) {M0 M1 s0 s1 : α} (h0 : 0 ≤ M0) (h1 : 0 ≤ M1) (hs0 : 0 ≤ s0)
    (hs1 : 0 ≤ s1) : 0 ≤ op.slackAff δ eps n M0 M1 s0 s1 ∧ 0 ≤ op.growAff δ n M0 M1 := by
  have q := (Lay.relu (α := α) (κ := Unit) (fun _ => 1) fun _ => 1).lossAff_nonneg hδ hδ1 (le_refl 0) (fun _ => by simp) n (M := fun _ => 1) (fun _ => zero_le_one) ()
  simp only [Lay.lossAff, Lay.growAff, mul_one] at q
  obtain ⟨q1, q2⟩ := q
  have g2 := gamma_nonneg hδ 2
  cases op <;> simp only [MergeOp.slackAff, MergeOp.growAff] <;> constructor <;> positivity

theorem Net.slackAff_nonneg (hδ : 0 ≤ δ) (hδ1 : δ < 1) {eps bn : α} (he : 0 < eps) (hbn : 0 ≤ bn) {X : ι → α} (hX : ∀ i, 0 ≤ X i) {κ : Type} (n : Net α ι κ)
    (hn : n.WF) (k : κ) : 0 ≤ n.slackAff δ eps bn X k ∧ 0 ≤ n.sizeAff δ bn X k := by
  induction n with
  | input => exact ⟨le_rfl, hX k⟩
  | layer n l ih =>
    have := l.lossAff_nonneg hδ hδ1 hbn hn.2 (Fintype.card ι) (fun j => (ih hn.1 j).2) k
    exact ⟨add_nonneg (l.spreadTol_nonneg he hn.2 _ (fun j => (ih hn.1 j).1) k) this.1, this.2⟩
  | merge op n0 n1 ih0 ih1 =>
    exact MergeOp.slackAff_nonneg hδ hδ1 he _ op (ih0 hn.1 k).2 (ih1 hn.2 k).2 (ih0 hn.1 k).1 (ih1 hn.2 k).1

/-- The computed tensors are not larger than the size, and bound the network up to the slack. -/
theorem Net.float_near (hδ : 0 ≤ δ) (hδ1 : δ < 1) (h : RelError rd δ) {eps : α} (he : 0 < eps) {sl : Slope} {bn : α} (hbn : 0 ≤ bn)
    {inp : Full (BoxOf ι α) ι ι α} {R : Set (ι → α)} (hD : boxDomain.Sound inp.x R) {p X : ι → α} (hR : p ∈ R)
    (hX : ∀ i, |inp.x.1 i| ≤ X i ∧ |inp.x.2 i| ≤ X i) (hp : ∀ i, |p i| ≤ X i) (hi : Valid .affine false inp p p) (hI : ∀ i, inp.sizeAff X i ≤ X i) {κ : Type}
    {n : Net α ι κ} (hn : n.WF) {g : Full (BoxOf ι α) ι κ α} (hg : n.RoundedAffine rd eps sl bn inp g) :
    (∀ k, g.sizeAff X k ≤ n.sizeAff δ bn X k) ∧ Near .affine g p (n.eval p) (n.slackAff δ eps bn X) := by
  have hX0 : ∀ i, 0 ≤ X i := fun i => (abs_nonneg _).trans (hp i)
  induction n with
  | input => rw [hg]; exact ⟨hI, near_of_valid _ inp p p hi⟩
  | layer n l ih =>
    obtain ⟨f, h1, h2⟩ := hg
    obtain ⟨i1, i2⟩ := ih hn.1 h1
    exact Lay.float_near hδ hδ1 h he hbn hn.2 h2 (by rw [h1.x]; exact hD) hR (by rw [h1.x]; exact hX) hp
      (fun k => (n.slackAff_nonneg hδ hδ1 he hbn hX0 hn.1 k).1) i2 i1
  | merge op n0 n1 ih0 ih1 =>
    obtain ⟨f0, f1, h1, h2, h3⟩ := hg
    obtain ⟨i1, i2⟩ := ih0 hn.1 h1
    obtain ⟨j1, j2⟩ := ih1 hn.2 h2
    exact MergeOp.float_near hδ hδ1 h he h3 (by rw [h1.x]; exact hD) (by rw [h2.x]; exact hD) hR (by rw [h2.x]; exact hX) hp
      (fun k => (n0.slackAff_nonneg hδ hδ1 he hbn hX0 hn.1 k).1) (fun k => (n1.slackAff_nonneg hδ hδ1 he hbn hX0 hn.2 k).1) i2 j2 i1 j1

end

end

end Decomon
