import Verif.Lemmas.RunsAffine
import Verif.Props.Slack
import Verif.Props.Runs
import Verif.Props.Wrapper
import Verif.Props.Stable

/-!
C149: the affine and hybrid bounds, and the certificates read off them, when every layer computes its tensors with an error.
-/

namespace Decomon

section
variable {X ι κ κ' α : Type} [Fintype ι] [Field α] [LinearOrder α] [IsStrictOrderedRing α]

/-- C149: whatever tensors the layers return within their tolerances, they bound the network up to the slack. -/
theorem C149_computed (D : PertDomain X ι α) (m : Mode) (eps : α) (he : 0 < eps) (sl : Slope) (t : Tol α) (ht : t.Nonneg) (inp : Full X ι ι α)
    (S : Set (ι → α)) (hD : D.Sound inp.x S) (n : Net α ι κ) (hn : n.WF) (hm : n.NoMultiply) (g : Full X ι κ α) (h : n.Computes D m eps sl t inp g)
    (p : ι → α) (hp : p ∈ S) (hi : Valid m false inp p p) (r : α) (hr : ∑ i, |p i| ≤ r) : Near m g p (n.eval p) (n.slackTol t eps r) :=
  Net.Computes.near he ht hD hp hr hi hn hm h

/-- The absolute values of the coordinates of a point of a box add up to at most this. -/
def boxSize (b : BoxOf ι α) : α := ∑ i, max |b.1 i| |b.2 i|

theorem boxSize_le (b : BoxOf ι α) (p : ι → α) (hp : p ∈ Box b.1 b.2) : ∑ i, |p i| ≤ boxSize b := by
  refine Finset.sum_le_sum fun i _ => ?_
  rcases le_total 0 (p i) with h | h
  · rw [abs_of_nonneg h]
    exact ((hp i).2.trans (le_abs_self _)).trans (le_max_right _ _)
  · rw [abs_of_nonpos h]
    exact ((neg_le_neg (hp i).1).trans (neg_le_abs _)).trans (le_max_left _ _)

/-- C149: on a box, in all modes. -/
theorem C149_box [DecidableEq ι] (m : Mode) (eps : α) (he : 0 < eps) (sl : Slope) (t : Tol α) (ht : t.Nonneg) (b : BoxOf ι α) (n : Net α ι κ) (hn : n.WF)
    (hm : n.NoMultiply) (g : Full ((ι → α) × (ι → α)) ι κ α) (h : n.Computes boxDomain m eps sl t (inputTensorsBox m b.1 b.2) g) (p : ι → α)
    (hp : p ∈ Box b.1 b.2) : Near m g p (n.eval p) (n.slackTol t eps (boxSize b)) := by
  have hr := boxSize_le b p hp
  have hi := C27_input_box m b.1 b.2 p hp
  have hD : boxDomain.Sound (inputTensorsBox m b.1 b.2).x (Box b.1 b.2) := boxDomain_sound b.1 b.2
  generalize boxSize b = r at hr ⊢
  exact C149_computed boxDomain m eps he sl t ht _ _ hD n hn hm g h p hp hi r hr

/-- C149: the range that `get_range_box` reports, itself computed up to `e` from the computed tensors, encloses the outputs that Keras computes up to
`e'`, after widening by the slack and the two errors. -/
theorem C149_range [DecidableEq ι] (m : Mode) (eps : α) (he : 0 < eps) (sl : Slope) (t : Tol α) (ht : t.Nonneg) (b : BoxOf ι α) (n : Net α ι κ)
    (hn : n.WF) (hm : n.NoMultiply) (g : Full ((ι → α) × (ι → α)) ι κ α) (h : n.Computes boxDomain m eps sl t (inputTensorsBox m b.1 b.2) g)
    (U L : κ → α) (e : α) (hU : ∀ k, |U k - rangeUpper m b g k| ≤ e) (hL : ∀ k, |L k - rangeLower m b g k| ≤ e) (p : ι → α) (hp : p ∈ Box b.1 b.2)
    (v : κ → α) (e' : α) (hv : ∀ k, |v k - n.eval p k| ≤ e') (k : κ) :
    L k - (n.slackTol t eps (boxSize b) k + e + e') ≤ v k ∧ v k ≤ U k + (n.slackTol t eps (boxSize b) k + e + e') := by
  have a := near_range hp (C149_box m eps he sl t ht b n hn hm g h p hp) k
  have h1 := abs_le.1 (hU k)
  have h2 := abs_le.1 (hL k)
  have h3 := abs_le.1 (hv k)
  constructor <;> linarith

/-- C149: a class is certified against another by the ranges. -/
theorem C149_range_certificate [DecidableEq ι] (m : Mode) (eps : α) (he : 0 < eps) (sl : Slope) (t : Tol α) (ht : t.Nonneg) (b : BoxOf ι α)
    (n : Net α ι κ) (hn : n.WF) (hm : n.NoMultiply) (g : Full ((ι → α) × (ι → α)) ι κ α)
    (h : n.Computes boxDomain m eps sl t (inputTensorsBox m b.1 b.2) g) (U L : κ → α) (e e' : α) (hU : ∀ k, |U k - rangeUpper m b g k| ≤ e)
    (hL : ∀ k, |L k - rangeLower m b g k| ≤ e) (c j : κ)
    (hc : U j + (n.slackTol t eps (boxSize b) j + e + e') < L c - (n.slackTol t eps (boxSize b) c + e + e')) (p : ι → α) (hp : p ∈ Box b.1 b.2)
    (v : κ → α) (hv : ∀ k, |v k - n.eval p k| ≤ e') : v j < v c := by
  have a := C149_range m eps he sl t ht b n hn hm g h U L e hU hL p hp v e' hv
  linarith [(a j).2, (a c).1]

/-- C149: a score of `get_adv_box` between two classes (`affinePair` of wrapper.py:184-224, `ibpPair` of wrapper.py:157-176), itself computed up to
`e`, below minus the slacks and the errors, certifies the order of the outputs that Keras computes up to `e'`. -/
theorem C149_score_certificate [DecidableEq ι] (m : Mode) (eps : α) (he : 0 < eps) (sl : Slope) (t : Tol α) (ht : t.Nonneg) (b : BoxOf ι α)
    (n : Net α ι κ) (hn : n.WF) (hm : n.NoMultiply) (g : Full ((ι → α) × (ι → α)) ι κ α)
    (h : n.Computes boxDomain m eps sl t (inputTensorsBox m b.1 b.2) g) (c j : κ) (score e e' : α)
    (hs : (getAffine m = true ∧ |score - affinePair b g j c| ≤ e) ∨ (getIbp m = true ∧ |score - ibpPair g j c| ≤ e))
    (hc : score < -(n.slackTol t eps (boxSize b) j + n.slackTol t eps (boxSize b) c + e + 2 * e')) (p : ι → α) (hp : p ∈ Box b.1 b.2)
    (v : κ → α) (hv : ∀ k, |v k - n.eval p k| ≤ e') : v j < v c := by
  have a := C149_box m eps he sl t ht b n hn hm g h p hp
  have h1 := abs_le.1 (hv j)
  have h2 := abs_le.1 (hv c)
  rcases hs with ⟨ha, hs⟩ | ⟨hi, hs⟩
  · have q := getUpperBox_sound hp (fun i => g.wu i j - g.wl i c) (g.bu j - g.bl c)
    have e1 : affEval (fun i => g.wu i j - g.wl i c) (g.bu j - g.bl c) p =
        affEval (fun i => g.wu i j) (g.bu j) p - affEval (fun i => g.wl i c) (g.bl c) p := by
      simp only [affEval, sub_mul, Finset.sum_sub_distrib]; ring
    rw [e1] at q
    have h3 := abs_le.1 hs
    simp only [affinePair] at h3
    linarith [(a.aff ha j).2, (a.aff ha c).1]
  · have h3 := abs_le.1 hs
    simp only [ibpPair] at h3
    linarith [(a.const hi j).2, (a.const hi c).1]

/-- Tensors that are equal differ by nothing. -/
theorem Full.Off.refl (m : Mode) (t : κ → α) (ht : ∀ k, 0 ≤ t k) (f : Full X ι κ α) : f.Off m t f :=
  ⟨rfl, fun _ k => by simp [ht k], fun _ i k => by simp [ht k], fun _ k => by simp [ht k]⟩

theorem reluFrom_exact (D : PertDomain X ι α) (m : Mode) (eps : α) (sl : Slope) (gamma t : κ → α) (ht : ∀ k, 0 ≤ t k) (f : Full X ι κ α) :
    ReluComputes D m eps sl gamma t f (reluT D m false eps sl gamma f) := by
  refine ⟨(f.tighten D m true true).uc, (f.tighten D m true true).lc, (f.tighten D m true true).uc, (f.tighten D m true true).lc,
    fun k => by simp [ht k], fun k => by simp [ht k], ?_⟩
  refine ⟨?_, fun hi k => ?_, fun ha i k => ?_, fun ha k => ?_⟩
  · simp [reluT, reluFrom]
  · simp [reluT, reluFrom, ht k]
  · simp [reluT, reluFrom, ht k]
  · simp [reluT, reluFrom, ht k]

theorem MergeOp.Computes.exact (D : PertDomain X ι α) (m : Mode) (eps t : α) (ht : 0 ≤ t) (op : MergeOp) (f0 f1 : Full X ι κ α) :
    op.Computes D m eps t f0 f1 (op.forward D m eps f0 f1) := by
  have hmax : ∀ a b : Full X ι κ α, MaxComputes D m eps t a b (maximumT D m false eps (fun _ => 1) a b) := fun a b =>
    ⟨_, _, Full.Off.refl m _ (fun _ => ht) _, reluFrom_exact D m eps .vSlope _ _ (fun _ => ht) _, Full.Off.refl m _ (fun _ => ht) _⟩
  cases op with
  | maximum => exact hmax f0 f1
  | minimum => exact ⟨_, hmax (minusT D m f0) (minusT D m f1), rfl⟩
  | _ => exact Full.Off.refl m _ (fun _ => ht) _

/-- C149: the exact tensors are among those that the layers may return. -/
theorem C149_exact (D : PertDomain X ι α) (m : Mode) (eps : α) (sl : Slope) (t : Tol α) (ht : t.Nonneg) (inp : Full X ι ι α) (n : Net α ι κ) :
    n.Computes D m eps sl t inp (n.forward D m eps sl inp) := by
  induction n with
  | input => rfl
  | layer n l ih =>
    refine ⟨_, ih, ?_⟩
    cases l with
    | relu gf gb => exact reluFrom_exact D m eps sl gf _ (ht.1 _) _
    | _ => exact Full.Off.refl m _ (ht.1 _) _
  | merge op n0 n1 ih0 ih1 => exact ⟨_, _, ih0, ih1, MergeOp.Computes.exact D m eps _ (ht.2 op) op _ _⟩

/-- C149: without tolerances the slack is the one of C104. -/
theorem C149_zero (eps : α) (he : 0 < eps) (r : α) (n : Net α ι κ) (k : κ) : n.slackTol ⟨fun _ _ => 0, fun _ => 0⟩ eps r k = eps * n.gain k := by
  induction n with
  | input => simp [Net.slackTol, Net.gain]
  | layer n l ih =>
    have e : (fun j => n.slackTol ⟨fun _ _ => 0, fun _ => 0⟩ eps r j / eps) = n.gain := funext fun j => by rw [ih]; field_simp
    simp only [Net.slackTol, Net.gain]
    rw [l.spreadTol_eq eps he, e, zero_mul, add_zero]
  | merge op n0 n1 ih0 ih1 =>
    simp only [Net.slackTol, Net.gain, ih0, ih1]
    cases op <;> simp only [MergeOp.spreadTol, MergeOp.gain] <;> ring

theorem split_error' {τ : Type} [Fintype τ] {rd : α → α} {δ : α} (hδ : 0 ≤ δ) (h : RelError rd δ) (x y w A : τ → α) (hx : ∀ t, |x t| ≤ A t)
    (hy : ∀ t, |y t| ≤ A t) (a b : α) (ha : IsSum rd (fun t => x t * max 0 (w t)) a) (hb : IsSum rd (fun t => y t * min 0 (w t)) b) :
    |rd (a + b) - ((∑ t, x t * max 0 (w t)) + ∑ t, y t * min 0 (w t))| ≤ ((1 + δ) ^ (Fintype.card τ + 2) - 1) * ∑ t, |w t| * A t := by
  obtain ⟨a1, a2⟩ := isSum_error hδ h _ a ha
  obtain ⟨b1, b2⟩ := isSum_error hδ h _ b hb
  have e1 := (round_add hδ h _ a1 b1 a2 b2).1
  have e4 : (∑ t, |x t * max 0 (w t)|) + (∑ t, |y t * min 0 (w t)|) ≤ ∑ t, |w t| * A t := by
    rw [← Finset.sum_add_distrib]
    gcongr with t
    rcases le_total 0 (w t) with hw | hw
    · rw [max_eq_right hw, min_eq_left hw, mul_zero, abs_zero, add_zero, abs_mul, mul_comm]
      exact mul_le_mul_of_nonneg_left (hx t) (abs_nonneg _)
    · rw [max_eq_left hw, min_eq_right hw, mul_zero, abs_zero, zero_add, abs_mul, mul_comm]
      exact mul_le_mul_of_nonneg_left (hy t) (abs_nonneg _)
  refine (e1.trans (gamma_mono hδ (Nat.le_succ _) ?_)).trans (mul_le_mul_of_nonneg_left e4 (gamma_nonneg hδ _))
  exact add_nonneg (Finset.sum_nonneg fun _ _ => abs_nonneg _) (Finset.sum_nonneg fun _ _ => abs_nonneg _)

/-- C149: a Dense layer in floating point arithmetic meets a tolerance: when the entries of the tensors it receives are at most `A` in absolute value, and
one rounding has the relative error `δ`, the entries it returns are within `((1 + δ) ^ (n + 2) - 1) (∑ |kernel| A + |bias|)` of the formula, whatever
the order of the sums. -/
theorem C149_dense_rounded [Fintype κ] {rd : α → α} {δ : α} (hδ : 0 ≤ δ) (h : RelError rd δ) (D : PertDomain X ι α) (eps : α) (sl : Slope)
    (kernel : κ → κ' → α) (bias : κ' → α) (f : Full X ι κ α) (A : κ → α) (hw : ∀ i k, |f.wu i k| ≤ A k ∧ |f.wl i k| ≤ A k)
    (hb : ∀ k, |f.bu k| ≤ A k ∧ |f.bl k| ≤ A k) (g : Full X ι κ' α) (hg : DenseRounded rd kernel bias f g) :
    (Lay.dense kernel bias).Computes D .affine eps sl
      (fun o => ((1 + δ) ^ (Fintype.card κ + 2) - 1) * ((∑ k, |kernel k o| * A k) + |bias o|)) f g := by
  have tt : f.tighten D .affine false true = f := by simp [Full.tighten]
  have up : ∀ o, ((1 + δ) ^ (Fintype.card κ + 2) - 1) * (∑ k, |kernel k o| * A k) ≤
      ((1 + δ) ^ (Fintype.card κ + 2) - 1) * ((∑ k, |kernel k o| * A k) + |bias o|) := fun o =>
    mul_le_mul_of_nonneg_left (le_add_of_nonneg_right (abs_nonneg _)) (gamma_nonneg hδ _)
  have c : ∀ (v : κ → α) o, ∑ t, max 0 (kernel t o) * v t = ∑ t, v t * max 0 (kernel t o) := fun v o => Finset.sum_congr rfl fun t _ => mul_comm _ _
  have c' : ∀ (v : κ → α) o, ∑ t, min 0 (kernel t o) * v t = ∑ t, v t * min 0 (kernel t o) := fun v o => Finset.sum_congr rfl fun t _ => mul_comm _ _
  simp only [Lay.Computes, Lay.forward, denseT, tt]
  refine ⟨hg.x, fun hi => absurd hi (by simp [getIbp]), fun _ i o => ⟨?_, ?_⟩, fun _ o => ⟨?_, ?_⟩⟩
  · obtain ⟨a, b, ha, hb', e⟩ := hg.wu i o
    simp only [e, getAffine, if_true, c, c']
    exact (split_error' hδ h _ _ (fun t => kernel t o) A (fun t => (hw i t).1) (fun t => (hw i t).2) a b ha hb').trans (up o)
  · obtain ⟨a, b, ha, hb', e⟩ := hg.wl i o
    simp only [e, getAffine, if_true, c, c']
    exact (split_error' hδ h _ _ (fun t => kernel t o) A (fun t => (hw i t).2) (fun t => (hw i t).1) a b ha hb').trans (up o)
  · obtain ⟨a, b, ha, hb', e⟩ := hg.bu o
    simp only [e, getAffine, if_true, c, c']
    exact split_error hδ h _ _ (fun t => kernel t o) A (fun t => (hb t).1) (fun t => (hb t).2) (bias o) a b ha hb'
  · obtain ⟨a, b, ha, hb', e⟩ := hg.bl o
    simp only [e, getAffine, if_true, c, c']
    exact split_error hδ h _ _ (fun t => kernel t o) A (fun t => (hb t).2) (fun t => (hb t).1) (bias o) a b ha hb'

end

/-- A tolerance of `t` in every layer. -/
def evenTol (t : ℚ) : Tol ℚ := ⟨fun _ _ => t, fun _ => t⟩

/-- C149: the cost `t (1 + r)` of a tolerance `t` is attained: on `[-1, 1]`, where `r = 1`, a layer that computes the identity up to `t` may return
tensors whose upper bound at 1 is `2 t` too low. -/
theorem C149_cost_sharp (t : ℚ) (ht : 0 ≤ t) : ∃ g, (Net.layer .input .skip : Net ℚ (Fin 1) (Fin 1)).Computes boxDomain .affine (1 / 10000000) .vSlope (evenTol t)
      (inputTensorsBox .affine (fun _ => -1) fun _ => 1) g ∧
    affEval (fun i => g.wu i 0) (g.bu 0) (fun _ => 1) + (Net.layer .input .skip : Net ℚ (Fin 1) (Fin 1)).slackTol (evenTol t) (1 / 10000000) 1 0 =
      (Net.layer .input .skip : Net ℚ (Fin 1) (Fin 1)).eval (fun _ => 1) 0 := by
  refine ⟨{ inputTensorsBox .affine (fun _ => -1) fun _ => 1 with wu := fun _ _ => 1 - t, bu := fun _ => -t }, ⟨_, rfl, ?_⟩, ?_⟩
  · refine ⟨rfl, fun h => absurd h (by simp [getIbp]), fun _ i k => ?_, fun _ k => ?_⟩
    · have : i = k := Subsingleton.elim _ _
      simp [evenTol, Lay.forward, inputTensorsBox, getAffine, this, ht, abs_of_nonneg ht]
    · simp [evenTol, Lay.forward, inputTensorsBox, getAffine, ht, abs_of_nonneg ht]
  · simp [affEval, Net.slackTol, Lay.spreadTol, Lay.tolCost, evenTol, Net.eval, Lay.eval]
    ring

/-- C149 on a residual block, on the box `[-1,1]²`, in affine or hybrid mode: with an error of `1e-6` in every entry of every layer the bounds hold up to
`1.5e-5`. -/
example (m : Mode) (g : Full ((Fin 2 → ℚ) × (Fin 2 → ℚ)) (Fin 2) (Fin 2) ℚ)
    (h : residualNet.Computes boxDomain m (1 / 10000000) .vSlope (evenTol (1 / 1000000)) (inputTensorsBox m (fun _ => -1) fun _ => 1) g) (p : Fin 2 → ℚ)
    (hp : p ∈ Box (fun _ => -1) fun _ => (1 : ℚ)) (k : Fin 2) :
    rangeLower m (fun _ => -1, fun _ => 1) g k - 15 / 1000000 ≤ residualNet.eval p k ∧
      residualNet.eval p k ≤ rangeUpper m (fun _ => -1, fun _ => 1) g k + 15 / 1000000 := by
  have a := C149_range m (1 / 10000000) (by norm_num) .vSlope (evenTol (1 / 1000000)) ⟨fun _ _ => by norm_num [evenTol], fun _ => by norm_num [evenTol]⟩
    (fun _ => -1, fun _ => 1) residualNet (by simp [residualNet, Net.WF, Lay.WF]) (by simp [residualNet, Net.NoMultiply]) g h _ _ 0
    (fun _ => by rw [sub_self, abs_zero]) (fun _ => by rw [sub_self, abs_zero]) p hp _ 0 (fun _ => by rw [sub_self, abs_zero]) k
  have e : residualNet.slackTol (evenTol (1 / 1000000)) (1 / 10000000) (boxSize (ι := Fin 2) (fun _ => -1, fun _ => 1)) k ≤ 15 / 1000000 := by
    clear a
    revert k
    decide +kernel
  constructor <;> linarith [a.1, a.2]

end Decomon
