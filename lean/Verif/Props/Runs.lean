import Verif.Lemmas.Runs
import Verif.Props.Rounded
import Verif.Props.Refine
import Mathlib.Algebra.BigOperators.Group.Finset.Basic

/-! Property C123: interval bounds and outputs computed with errors, in any network. -/

namespace Decomon

section
variable {ι κ κ' α : Type} [Field α] [LinearOrder α] [IsStrictOrderedRing α]

/-! ### Sizes and slack -/

theorem max_abs_le {u l A : α} (hu : |u| ≤ A) (hl : |l| ≤ A) : 0 ≤ max |u| |l| ∧ max |u| |l| ≤ A :=
  ⟨(abs_nonneg u).trans (le_max_left _ _), max_le hu hl⟩

theorem abs_le_of_near {x y S e e' : α} (h : |x - y| ≤ e) (he : e ≤ e') (hy : |y| ≤ S) : |x| ≤ S + e' := by
  have := abs_add_le (x - y) y
  rw [sub_add_cancel] at this
  linarith

theorem Net.runs_size (E : OpError α) (hE : E.Mono) (σ : α) (hσ : 0 < σ) (N : Net α ι κ) (hN : N.WF) (hsd : N.SdAbove σ) (p A : ι → α)
    (hp : ∀ i, |p i| ≤ A i) (v : κ → α) (hv : N.Runs E p v) : ∀ k, |v k| ≤ N.sizeWith E σ A k := by
  induction N with
  | input => subst hv; exact hp
  | layer n l ih =>
    obtain ⟨w, hw, h⟩ := hv
    have iw := ih hN.1 hsd.1 w hw
    intro k
    exact abs_le_of_near (h k) (hE.lay l _ _ (fun t => ⟨abs_nonneg _, iw t⟩) k) (l.eval_size hN.2 σ hσ hsd.2 w _ iw k)
  | merge op n0 n1 ih0 ih1 =>
    obtain ⟨w0, w1, hw0, hw1, h⟩ := hv
    have i0 := ih0 hN.1 hsd.1 w0 hw0
    have i1 := ih1 hN.2 hsd.2 w1 hw1
    intro k
    exact abs_le_of_near (h k) (hE.merge op _ _ _ _ (abs_nonneg _) (i0 k) (abs_nonneg _) (i1 k)) (op.eval_size _ _ _ _ (i0 k) (i1 k))

theorem Net.runsIbp_size (E : OpError α) (hE : E.Mono) (eps : α) (sl : Slope) (σ : α) (hσ : 0 < σ) (N : Net α ι κ) (hsd : N.SdAbove σ)
    (up lo A : ι → α) (hu : ∀ i, |up i| ≤ A i) (hl : ∀ i, |lo i| ≤ A i) (u l : κ → α) (h : N.RunsIbp E eps sl up lo u l) :
    ∀ k, |u k| ≤ N.sizeWith E σ A k ∧ |l k| ≤ N.sizeWith E σ A k := by
  induction N with
  | input => obtain ⟨rfl, rfl⟩ := h; exact fun k => ⟨hu k, hl k⟩
  | layer n lay ih =>
    obtain ⟨u0, l0, h0, h⟩ := h
    have i0 := ih hsd.1 u0 l0 h0
    intro k
    have hm := hE.lay lay _ _ (fun t => max_abs_le (i0 t).1 (i0 t).2) k
    have hb := lay.size_bounds (emptyDomain α) eps sl id σ hσ (by rw [Lay.map_id]; exact hsd.2) _ _
      (bounded_only (fun k => (i0 k).1) (fun k => (i0 k).2)) k
    rw [Lay.map_id] at hb
    exact ⟨abs_le_of_near (h k).1 hm hb.1, abs_le_of_near (h k).2 hm hb.2⟩
  | merge op n0 n1 ih0 ih1 =>
    obtain ⟨u0, l0, u1, l1, h0, h1, h⟩ := h
    have i0 := ih0 hsd.1 u0 l0 h0
    have i1 := ih1 hsd.2 u1 l1 h1
    intro k
    have m0 := max_abs_le (i0 k).1 (i0 k).2
    have m1 := max_abs_le (i1 k).1 (i1 k).2
    have hm := hE.merge op _ _ _ _ m0.1 m0.2 m1.1 m1.2
    have hb := op.size_bounds (emptyDomain α) eps (ibpOnly u0 l0) (ibpOnly u1 l1) k _ _ (i0 k) (i1 k)
    exact ⟨abs_le_of_near (h k).1 hm hb.1, abs_le_of_near (h k).2 hm hb.2⟩

theorem Lay.drift_nonneg [Fintype κ] (l : Lay α κ κ') (σ : α) (hσ : 0 < σ) (A s : κ → α) (hs : ∀ k, 0 ≤ s k) (k : κ') : 0 ≤ l.drift id 0 σ A s k := by
  cases l with
  | dense kernel bias =>
    simp only [Lay.drift, add_zero, zero_mul]
    exact Finset.sum_nonneg fun t _ => mul_nonneg (abs_nonneg _) (hs t)
  | linear L kernel bias =>
    simp only [Lay.drift, add_zero, zero_mul]
    refine Finset.sum_nonneg fun t _ => mul_nonneg (abs_nonneg _) ?_
    cases L.src k t with
    | none => exact le_rfl
    | some j => exact hs j
  | relu gf gb => exact hs k
  | batchNorm gamma beta mean sd =>
    simp only [Lay.drift, add_zero, zero_mul, zero_div, mul_zero]
    exact mul_nonneg (abs_nonneg _) (div_nonneg (hs k) hσ.le)
  | reshape e => exact hs (e k)
  | skip => exact hs k

theorem MergeOp.drift_nonneg (op : MergeOp) (a b s t : α) (ha : 0 ≤ a) (hb : 0 ≤ b) (hs : 0 ≤ s) (ht : 0 ≤ t) : 0 ≤ op.drift a b s t := by
  cases op <;> simp only [MergeOp.drift] <;> positivity

/-! ### C123: errors of any origin -/

/-- C123: the numbers that a network computes with errors, at an input at most `s` outside the box, lie within the bounds computed with
errors for the box, up to an explicit slack. -/
theorem C123_slack (E : OpError α) (hE : E.Mono) (eps : α) (he : 0 < eps) (sl : Slope) (σ : α) (hσ : 0 < σ) (N : Net α ι κ) (hN : N.WF)
    (hsd : N.SdAbove σ) (up lo p A s : ι → α) (hu : ∀ i, |up i| ≤ A i) (hl : ∀ i, |lo i| ≤ A i) (hpA : ∀ i, |p i| ≤ A i) (hs : ∀ i, 0 ≤ s i)
    (hp : ∀ i, lo i - s i ≤ p i ∧ p i ≤ up i + s i) (v u l : κ → α) (hv : N.Runs E p v) (hb : N.RunsIbp E eps sl up lo u l) (k : κ) :
    l k - N.slackWith E σ A s k ≤ v k ∧ v k ≤ u k + N.slackWith E σ A s k := by
  suffices h : ∀ k, 0 ≤ N.slackWith E σ A s k ∧ l k - N.slackWith E σ A s k ≤ v k ∧ v k ≤ u k + N.slackWith E σ A s k from (h k).2
  clear k
  induction N with
  | input =>
    obtain ⟨rfl, rfl⟩ := hb
    subst hv
    exact fun k => ⟨hs k, hp k⟩
  | layer n lay ih =>
    obtain ⟨w, hw, h⟩ := hv
    obtain ⟨u0, l0, h0, h'⟩ := hb
    have i0 := ih hN.1 hsd.1 w u0 l0 hw h0
    have zw := n.runs_size E hE σ hσ hN.1 hsd.1 p A hpA w hw
    have zb := n.runsIbp_size E hE eps sl σ hσ hsd.1 up lo A hu hl u0 l0 h0
    intro k
    have st := lay.sticks_out eps he sl hN.2 σ hσ hsd.2 u0 l0 w _ _ (fun k => (zb k).1) (fun k => (zb k).2) (fun k => (i0 k).1) (fun k => (i0 k).2) k
    have m1 := hE.lay lay _ _ (fun t => ⟨abs_nonneg _, zw t⟩) k
    have m2 := hE.lay lay _ _ (fun t => max_abs_le (zb t).1 (zb t).2) k
    have e1 := abs_le.mp ((h k).trans m1)
    have e2 := abs_le.mp ((h' k).1.trans m2)
    have e3 := abs_le.mp ((h' k).2.trans m2)
    have e4 := (abs_nonneg _).trans ((h k).trans m1)
    have e5 := lay.drift_nonneg σ hσ (n.sizeWith E σ A) _ (fun k => (i0 k).1) k
    simp only [Net.slackWith]
    refine ⟨by linarith, ?_, ?_⟩ <;> linarith [st.1, st.2, e1.1, e1.2, e2.1, e2.2, e3.1, e3.2]
  | merge op n0 n1 ih0 ih1 =>
    obtain ⟨w0, w1, hw0, hw1, h⟩ := hv
    obtain ⟨u0, l0, u1, l1, h0, h1, h'⟩ := hb
    have i0 := ih0 hN.1 hsd.1 w0 u0 l0 hw0 h0
    have i1 := ih1 hN.2 hsd.2 w1 u1 l1 hw1 h1
    have zw0 := n0.runs_size E hE σ hσ hN.1 hsd.1 p A hpA w0 hw0
    have zw1 := n1.runs_size E hE σ hσ hN.2 hsd.2 p A hpA w1 hw1
    have zb0 := n0.runsIbp_size E hE eps sl σ hσ hsd.1 up lo A hu hl u0 l0 h0
    have zb1 := n1.runsIbp_size E hE eps sl σ hσ hsd.2 up lo A hu hl u1 l1 h1
    intro k
    have st := op.sticks_out eps he u0 l0 w0 _ u1 l1 w1 _ k _ _ (zb0 k).1 (zb0 k).2 (zb1 k).1 (zb1 k).2 (fun k => (i0 k).1) (fun k => (i1 k).1)
      (fun k => (i0 k).2) (fun k => (i1 k).2)
    have m1 := hE.merge op _ _ _ _ (abs_nonneg _) (zw0 k) (abs_nonneg _) (zw1 k)
    have m0' := max_abs_le (zb0 k).1 (zb0 k).2
    have m1' := max_abs_le (zb1 k).1 (zb1 k).2
    have m2 := hE.merge op _ _ _ _ m0'.1 m0'.2 m1'.1 m1'.2
    have e1 := abs_le.mp ((h k).trans m1)
    have e2 := abs_le.mp ((h' k).1.trans m2)
    have e3 := abs_le.mp ((h' k).2.trans m2)
    have e4 := (abs_nonneg _).trans ((h k).trans m1)
    have e5 := op.drift_nonneg _ _ _ _ ((abs_nonneg _).trans (zw0 k)) ((abs_nonneg _).trans (zw1 k)) (i0 k).1 (i1 k).1
    simp only [Net.slackWith]
    refine ⟨by linarith, ?_, ?_⟩ <;> linarith [st.1, st.2, e1.1, e1.2, e2.1, e2.2, e3.1, e3.2]

/-- C123: a margin between two classes that is larger than the two slacks is a certificate for the numbers that are computed. -/
theorem C123_certificate (E : OpError α) (hE : E.Mono) (eps : α) (he : 0 < eps) (sl : Slope) (σ : α) (hσ : 0 < σ) (N : Net α ι κ) (hN : N.WF)
    (hsd : N.SdAbove σ) (up lo A : ι → α) (hu : ∀ i, |up i| ≤ A i) (hl : ∀ i, |lo i| ≤ A i) (u l : κ → α) (hb : N.RunsIbp E eps sl up lo u l)
    (c j : κ) (hm : u j + N.slackWith E σ A (fun _ => 0) j < l c - N.slackWith E σ A (fun _ => 0) c) (p : ι → α) (hp : ∀ i, lo i ≤ p i ∧ p i ≤ up i)
    (v : κ → α) (hv : N.Runs E p v) : v j < v c := by
  have hpA : ∀ i, |p i| ≤ A i := by
    intro i
    have h1 := abs_le.mp (hu i)
    have h2 := abs_le.mp (hl i)
    rw [abs_le]
    constructor <;> linarith [(hp i).1, (hp i).2]
  have h := C123_slack E hE eps he sl σ hσ N hN hsd up lo p A (fun _ => 0) hu hl hpA (fun _ => le_rfl) (by simpa using hp) v u l hv hb
  linarith [(h j).2, (h c).1]

/-- The exact outputs are outputs computed with errors. -/
theorem Net.eval_runs (E : OpError α) (hE : E.Nonneg) (N : Net α ι κ) (p : ι → α) : N.Runs E p (N.eval p) := by
  induction N with
  | input => rfl
  | layer n l ih => exact ⟨_, ih, fun k => by rw [Net.eval, sub_self, abs_zero]; exact hE.lay l _ (fun _ => abs_nonneg _) k⟩
  | merge op n0 n1 ih0 ih1 =>
    exact ⟨_, _, ih0, ih1, fun k => by rw [Net.eval, sub_self, abs_zero]; exact hE.merge op _ _ (abs_nonneg _) (abs_nonneg _)⟩

/-- C123: bounds computed with errors hold for the exact function, up to the slack. -/
theorem C123_exact_function (E : OpError α) (hE : E.Mono) (h0 : E.Nonneg) (eps : α) (he : 0 < eps) (sl : Slope) (σ : α) (hσ : 0 < σ)
    (N : Net α ι κ) (hN : N.WF) (hsd : N.SdAbove σ) (up lo A : ι → α) (hu : ∀ i, |up i| ≤ A i) (hl : ∀ i, |lo i| ≤ A i) (u l : κ → α)
    (hb : N.RunsIbp E eps sl up lo u l) (p : ι → α) (hp : ∀ i, lo i ≤ p i ∧ p i ≤ up i) (k : κ) :
    l k - N.slackWith E σ A (fun _ => 0) k ≤ N.eval p k ∧ N.eval p k ≤ u k + N.slackWith E σ A (fun _ => 0) k := by
  have hpA : ∀ i, |p i| ≤ A i := by
    intro i
    have h1 := abs_le.mp (hu i)
    have h2 := abs_le.mp (hl i)
    rw [abs_le]
    constructor <;> linarith [(hp i).1, (hp i).2]
  exact C123_slack E hE eps he sl σ hσ N hN hsd up lo p A (fun _ => 0) hu hl hpA (fun _ => le_rfl) (by simpa using hp) _ u l (N.eval_runs E h0 p) hb k

/-! ### Without errors -/

/-- No errors. -/
def noError (α : Type) [Zero α] : OpError α := { lay := fun _ _ _ => 0, merge := fun _ _ _ => 0 }

theorem noError_lay [Fintype κ] (l : Lay α κ κ') (A : κ → α) (k : κ') : (noError α).lay l A k = 0 := rfl

theorem noError_merge (op : MergeOp) (a b : α) : (noError α).merge op a b = 0 := rfl

/-- C123: without errors, what is computed is the function of the network and the bounds of `Net.forward` in ibp mode. -/
theorem C123_no_error {X : Type} [Fintype ι] (D : PertDomain X ι α) (eps : α) (sl : Slope) (inp : Full X ι ι α) (N : Net α ι κ) :
    (∀ p v, N.Runs (noError α) p v ↔ v = N.eval p) ∧
      ∀ u l, N.RunsIbp (noError α) eps sl inp.uc inp.lc u l ↔ u = (N.forward D .ibp eps sl inp).uc ∧ l = (N.forward D .ibp eps sl inp).lc := by
  have z : ∀ a b : α, |a - b| ≤ 0 ↔ a = b := fun a b => by rw [abs_nonpos_iff, sub_eq_zero]
  constructor
  · intro p
    induction N with
    | input => exact fun v => Iff.rfl
    | layer n l ih =>
      intro v
      simp only [Net.Runs, ih, noError_lay, z, Net.eval]
      exact ⟨by rintro ⟨w, rfl, h⟩; exact funext h, by rintro rfl; exact ⟨_, rfl, fun _ => rfl⟩⟩
    | merge op n0 n1 ih0 ih1 =>
      intro v
      simp only [Net.Runs, ih0, ih1, noError_merge, z, Net.eval]
      exact ⟨by rintro ⟨w, w', rfl, rfl, h⟩; exact funext h, by rintro rfl; exact ⟨_, _, rfl, rfl, fun _ => rfl⟩⟩
  · induction N with
    | input => exact fun u l => Iff.rfl
    | layer n lay ih =>
      intro u l
      have e := lay.forward_only D eps sl (n.forward D .ibp eps sl inp)
      simp only [Net.RunsIbp, ih, noError_lay, z, Net.forward, e.1, e.2]
      exact ⟨by rintro ⟨a, b, ⟨rfl, rfl⟩, h⟩; exact ⟨funext fun k => (h k).1, funext fun k => (h k).2⟩,
        by rintro ⟨rfl, rfl⟩; exact ⟨_, _, ⟨rfl, rfl⟩, fun _ => ⟨rfl, rfl⟩⟩⟩
    | merge op n0 n1 ih0 ih1 =>
      intro u l
      have e := op.forward_only D eps (n0.forward D .ibp eps sl inp) (n1.forward D .ibp eps sl inp)
      simp only [Net.RunsIbp, ih0, ih1, noError_merge, z, Net.forward, e.1, e.2]
      exact ⟨by rintro ⟨a, b, c, d, ⟨rfl, rfl⟩, ⟨rfl, rfl⟩, h⟩; exact ⟨funext fun k => (h k).1, funext fun k => (h k).2⟩,
        by rintro ⟨rfl, rfl⟩; exact ⟨_, _, _, _, ⟨rfl, rfl⟩, ⟨rfl, rfl⟩, fun _ => ⟨rfl, rfl⟩⟩⟩

/-! ### Rounded arithmetic -/

/-- The errors of rounded arithmetic: one factor `1 + δ` for every operation that a number goes through. -/
def roundError (δ : α) (bn : α → α → α → α → α → α) : OpError α where
  lay {κ _} _ l A k :=
    match l, k with
    | .dense kernel bias, o => ((1 + δ) ^ (Fintype.card κ + 2) - 1) * ((∑ t, |kernel t o| * A t) + |bias o|)
    | @Lay.linear _ _ _ T _ _ L kernel bias, o =>
      ((1 + δ) ^ (Fintype.card T + 2) - 1) * ((∑ t, |kernel (L.kidx o t)| * (L.src o t).elim 0 A) + |bias o|)
    | .relu _ _, _ => 0
    | .batchNorm gamma beta mean sd, k => bn (gamma k) (beta k) (mean k) (sd k) (A k)
    | .reshape _, _ => 0
    | .skip, _ => 0
  merge op a b := ((1 + δ) ^ 3 - 1) * op.size a b

theorem gamma_nonneg {δ : α} (hδ : 0 ≤ δ) (n : ℕ) : 0 ≤ (1 + δ) ^ n - 1 := by
  linarith [one_le_pow₀ (show 1 ≤ 1 + δ by linarith) (n := n)]

theorem elim_le {ι : Type} (o : Option ι) (A B : ι → α) (h : ∀ i, 0 ≤ A i ∧ A i ≤ B i) : o.elim 0 A ≤ o.elim 0 B := by
  cases o with
  | none => exact le_rfl
  | some i => exact (h i).2

theorem MergeOp.size_mono (op : MergeOp) (a a' b b' : α) (ha : 0 ≤ a) (haa : a ≤ a') (hb : 0 ≤ b) (hbb : b ≤ b') : op.size a b ≤ op.size a' b' := by
  have ha' := ha.trans haa
  cases op <;> simp only [MergeOp.size] <;> gcongr

theorem roundError_mono {δ : α} (hδ : 0 ≤ δ) (bn : α → α → α → α → α → α) (hbn : ∀ g b m s x y, 0 ≤ x → x ≤ y → bn g b m s x ≤ bn g b m s y) :
    (roundError δ bn).Mono where
  lay l A B h o := by
    cases l with
    | dense kernel bias =>
      refine mul_le_mul_of_nonneg_left (add_le_add (Finset.sum_le_sum fun t _ => ?_) le_rfl) (gamma_nonneg hδ _)
      exact mul_le_mul_of_nonneg_left (h t).2 (abs_nonneg _)
    | linear L kernel bias =>
      refine mul_le_mul_of_nonneg_left (add_le_add (Finset.sum_le_sum fun t _ => ?_) le_rfl) (gamma_nonneg hδ _)
      exact mul_le_mul_of_nonneg_left (elim_le _ _ _ h) (abs_nonneg _)
    | relu gf gb => exact le_rfl
    | batchNorm gamma beta mean sd => exact hbn _ _ _ _ _ _ (h o).1 (h o).2
    | reshape e => exact le_rfl
    | skip => exact le_rfl
  merge op a a' b b' ha haa hb hbb := mul_le_mul_of_nonneg_left (op.size_mono _ _ _ _ ha haa hb hbb) (gamma_nonneg hδ _)

theorem SumTree.depth_lt {τ : Type} (t : SumTree τ) : t.depth + 1 ≤ t.leaves.length := by
  induction t with
  | leaf k => simp [SumTree.depth, SumTree.leaves]
  | node a b iha ihb => simp only [SumTree.depth, SumTree.leaves, List.length_append]; omega

theorem leaves_sum {τ : Type} [Fintype τ] (t : SumTree τ) (h : (t.leaves : Multiset τ) = Finset.univ.val) (p : τ → α) :
    (t.leaves.map p).sum = ∑ i, p i := by
  rw [Finset.sum, ← h]; rfl

theorem isSum_error {τ : Type} [Fintype τ] {rd : α → α} {δ : α} (hδ : 0 ≤ δ) (h : RelError rd δ) (p : τ → α) (v : α) (hv : IsSum rd p v) :
    |v - ∑ t, p t| ≤ ((1 + δ) ^ Fintype.card τ - 1) * ∑ t, |p t| ∧ |∑ t, p t| ≤ ∑ t, |p t| := by
  refine ⟨?_, Finset.abs_sum_le_sum_abs _ _⟩
  rcases hv with ⟨_, rfl⟩ | ⟨t, ht, rfl⟩
  · simp
  · have e := (tree_error hδ h p t).1
    rw [leaves_sum t ht, leaves_sum t ht] at e
    refine e.trans (gamma_mono hδ ?_ (Finset.sum_nonneg fun _ _ => abs_nonneg _))
    have := t.depth_lt
    have hc : t.leaves.length = Fintype.card τ := by
      have := congrArg Multiset.card ht
      simpa using this
    omega

theorem const_error {δ : α} (hδ : 0 ≤ δ) (n : ℕ) (c : α) : |c - c| ≤ ((1 + δ) ^ n - 1) * |c| := by
  rw [sub_self, abs_zero]
  exact mul_nonneg (gamma_nonneg hδ n) (abs_nonneg c)

/-- A sum of products and a bias. -/
theorem dense_error {τ : Type} [Fintype τ] {rd : α → α} {δ : α} (hδ : 0 ≤ δ) (h : RelError rd δ) (x w A : τ → α) (hx : ∀ t, |x t| ≤ A t) (c d : α)
    (hd : IsSum rd (fun t => x t * w t) d) :
    |rd (d + c) - ((∑ t, x t * w t) + c)| ≤ ((1 + δ) ^ (Fintype.card τ + 2) - 1) * ((∑ t, |w t| * A t) + |c|) := by
  obtain ⟨e1, e2⟩ := isSum_error hδ h _ d hd
  have e3 := (round_add hδ h _ e1 (const_error hδ _ c) e2 le_rfl).1
  have e4 : (∑ t, |x t * w t|) + |c| ≤ (∑ t, |w t| * A t) + |c| := by
    gcongr with t
    rw [abs_mul, mul_comm]
    exact mul_le_mul_of_nonneg_left (hx t) (abs_nonneg _)
  refine (e3.trans (gamma_mono hδ (Nat.le_succ _) ?_)).trans (mul_le_mul_of_nonneg_left e4 (gamma_nonneg hδ _))
  exact add_nonneg (Finset.sum_nonneg fun _ _ => abs_nonneg _) (abs_nonneg _)

/-- Two sums of products and a bias. -/
theorem split_error {τ : Type} [Fintype τ] {rd : α → α} {δ : α} (hδ : 0 ≤ δ) (h : RelError rd δ) (x y w A : τ → α) (hx : ∀ t, |x t| ≤ A t)
    (hy : ∀ t, |y t| ≤ A t) (c a b : α) (ha : IsSum rd (fun t => x t * max 0 (w t)) a) (hb : IsSum rd (fun t => y t * min 0 (w t)) b) :
    |rd (rd (a + b) + c) - ((∑ t, x t * max 0 (w t)) + (∑ t, y t * min 0 (w t)) + c)| ≤
      ((1 + δ) ^ (Fintype.card τ + 2) - 1) * ((∑ t, |w t| * A t) + |c|) := by
  obtain ⟨a1, a2⟩ := isSum_error hδ h _ a ha
  obtain ⟨b1, b2⟩ := isSum_error hδ h _ b hb
  obtain ⟨e1, e2⟩ := round_add hδ h _ a1 b1 a2 b2
  have e3 := (round_add hδ h _ e1 (const_error hδ _ c) e2 le_rfl).1
  have e4 : (∑ t, |x t * max 0 (w t)|) + (∑ t, |y t * min 0 (w t)|) + |c| ≤ (∑ t, |w t| * A t) + |c| := by
    rw [← Finset.sum_add_distrib]
    gcongr with t
    rcases le_total 0 (w t) with hw | hw
    · rw [max_eq_right hw, min_eq_left hw, mul_zero, abs_zero, add_zero, abs_mul, mul_comm]
      exact mul_le_mul_of_nonneg_left (hx t) (abs_nonneg _)
    · rw [max_eq_left hw, min_eq_right hw, mul_zero, abs_zero, zero_add, abs_mul, mul_comm]
      exact mul_le_mul_of_nonneg_left (hy t) (abs_nonneg _)
  exact e3.trans (mul_le_mul_of_nonneg_left e4 (gamma_nonneg hδ _))

theorem Lay.rounded_call [Fintype κ] {rd : α → α} {δ : α} (hδ : 0 ≤ δ) (h : RelError rd δ) (bn : α → α → α → α → α → α) (l : Lay α κ κ')
    (w : κ → α) (v : κ' → α) (hv : l.RoundedCall rd bn w v) (k : κ') : |v k - l.eval w k| ≤ (roundError δ bn).lay l (fun t => |w t|) k := by
  cases l with
  | dense kernel bias =>
    obtain ⟨d, hd, e⟩ := hv k
    rw [e]
    have := dense_error hδ h w (fun t => kernel t k) (fun t => |w t|) (fun _ => le_rfl) (bias k) d hd
    simpa only [Lay.eval, roundError, mul_comm (w _)] using this
  | linear L kernel bias =>
    obtain ⟨d, hd, e⟩ := hv k
    rw [e]
    have := dense_error hδ h (fun t => (L.src k t).elim 0 w) (fun t => kernel (L.kidx k t)) (fun t => (L.src k t).elim 0 fun t => |w t|)
      (fun t => by cases L.src k t <;> simp) (bias k) d hd
    have ee : (Lay.linear L kernel bias).eval w k = (∑ t, (L.src k t).elim 0 w * kernel (L.kidx k t)) + bias k := by
      simp only [Lay.eval]
      congr 1
      exact Finset.sum_congr rfl fun t _ => by rw [mul_comm]; cases L.src k t <;> rfl
    rw [ee]
    exact this
  | relu gf gb => simp [hv k, Lay.eval, roundError, relu]
  | batchNorm gamma beta mean sd => exact hv k
  | reshape e => simp [hv k, Lay.eval, roundError]
  | skip => simp [hv k, Lay.eval, roundError]

theorem Lay.rounded_ibp [Fintype κ] {rd : α → α} {δ : α} (hδ : 0 ≤ δ) (h : RelError rd δ) (bn : α → α → α → α → α → α) (eps : α) (sl : Slope)
    (lay : Lay α κ κ') (u0 l0 : κ → α) (u l : κ' → α) (hv : lay.RoundedIbp rd bn u0 l0 u l) (k : κ') :
    |u k - (lay.forward (emptyDomain α) .ibp eps sl (ibpOnly u0 l0)).uc k| ≤ (roundError δ bn).lay lay (fun t => max |u0 t| |l0 t|) k ∧
      |l k - (lay.forward (emptyDomain α) .ibp eps sl (ibpOnly u0 l0)).lc k| ≤ (roundError δ bn).lay lay (fun t => max |u0 t| |l0 t|) k := by
  have hib : getIbp .ibp = true := rfl
  have hu : ∀ t, |u0 t| ≤ max |u0 t| |l0 t| := fun t => le_max_left _ _
  have hl : ∀ t, |l0 t| ≤ max |u0 t| |l0 t| := fun t => le_max_right _ _
  cases lay with
  | dense kernel bias =>
    obtain ⟨⟨a, b, ha, hb, e⟩, a', b', ha', hb', e'⟩ := hv k
    rw [e, e']
    have e1 := split_error hδ h u0 l0 (fun t => kernel t k) _ hu hl (bias k) a b ha hb
    have e2 := split_error hδ h l0 u0 (fun t => kernel t k) _ hl hu (bias k) a' b' ha' hb'
    simp only [mul_comm (u0 _), mul_comm (l0 _)] at e1 e2
    exact ⟨e1, e2⟩
  | linear L kernel bias =>
    obtain ⟨⟨a, b, ha, hb, e⟩, a', b', ha', hb', e'⟩ := hv k
    rw [e, e']
    have hu' : ∀ t, |(L.src k t).elim 0 u0| ≤ (L.src k t).elim 0 fun t => max |u0 t| |l0 t| := fun t => by cases L.src k t <;> simp
    have hl' : ∀ t, |(L.src k t).elim 0 l0| ≤ (L.src k t).elim 0 fun t => max |u0 t| |l0 t| := fun t => by cases L.src k t <;> simp
    have e1 := split_error hδ h _ _ (fun t => kernel (L.kidx k t)) _ hu' hl' (bias k) a b ha hb
    have e2 := split_error hδ h _ _ (fun t => kernel (L.kidx k t)) _ hl' hu' (bias k) a' b' ha' hb'
    simp only [mul_comm (Option.elim _ _ u0), mul_comm (Option.elim _ _ l0)] at e1 e2
    exact ⟨e1, e2⟩
  | relu gf gb =>
    have := hv k
    simp [this.1, this.2, Lay.forward, reluT, hib, tighten_ibp_eq, ibpOnly, Decomon.relu, roundError]
  | batchNorm gamma beta mean sd => exact hv k
  | reshape e =>
    have := hv k
    simp [this.1, this.2, Lay.forward, reindexT, ibpOnly, roundError, hib, tighten_ibp_eq]
  | skip =>
    have := hv k
    simp [this.1, this.2, Lay.forward, ibpOnly, roundError]

theorem size_one {δ : α} (hδ : 0 ≤ δ) {m n : ℕ} (h : m ≤ n) {x y S T : α} (hx : |x - y| ≤ ((1 + δ) ^ m - 1) * S) (hS : 0 ≤ S) (hST : S ≤ T) :
    |x - y| ≤ ((1 + δ) ^ n - 1) * T :=
  (hx.trans (gamma_mono hδ h hS)).trans (mul_le_mul_of_nonneg_left hST (gamma_nonneg hδ _))

theorem near_zero {δ : α} (hδ : 0 ≤ δ) (n : ℕ) (x : α) {S : α} (hS : 0 ≤ S) : |x - x| ≤ ((1 + δ) ^ n - 1) * S := by
  rw [sub_self, abs_zero]
  exact mul_nonneg (gamma_nonneg hδ _) hS

theorem sum_error {rd : α → α} {δ : α} (hδ : 0 ≤ δ) (h : RelError rd δ) {x y a b : α} (hx : |x| ≤ a) (hy : |y| ≤ b) :
    |rd (x + y) - (x + y)| ≤ ((1 + δ) ^ 1 - 1) * (a + b) ∧ |x + y| ≤ a + b :=
  round_add hδ h 0 (near_zero hδ 0 x ((abs_nonneg _).trans hx)) (near_zero hδ 0 y ((abs_nonneg _).trans hy)) hx hy

theorem prod_error {rd : α → α} {δ : α} (hδ : 0 ≤ δ) (h : RelError rd δ) {x y a b : α} (hx : |x| ≤ a) (hy : |y| ≤ b) :
    |rd (x * y) - x * y| ≤ ((1 + δ) ^ 1 - 1) * (a * b) ∧ |x * y| ≤ a * b := by
  have e : |x * y| ≤ a * b := by
    rw [abs_mul]
    have := (abs_nonneg _).trans hx
    gcongr
  exact ⟨(h _).trans (by rw [pow_one, add_sub_cancel_left]; exact mul_le_mul_of_nonneg_left e hδ), e⟩

/-- `ReLU(y - x) + x'`. -/
theorem maxIbp_error {rd : α → α} {δ : α} (hδ : 0 ≤ δ) (h : RelError rd δ) {x x' y a b : α} (hx : |x| ≤ a) (hx' : |x'| ≤ a) (hy : |y| ≤ b) :
    |rd (max (rd (y + -x)) 0 + x') - (relu (y + -x) + x')| ≤ ((1 + δ) ^ 3 - 1) * (2 * a + b) := by
  have ha := (abs_nonneg _).trans hx
  obtain ⟨e1, e2⟩ := sum_error hδ h hy (show |-x| ≤ a by rwa [abs_neg])
  have e3 : |max (rd (y + -x)) 0 - relu (y + -x)| ≤ ((1 + δ) ^ 1 - 1) * (b + a) := (abs_max_sub_max_le_abs _ _ _).trans e1
  have e4 := (round_add hδ h 1 e3 (near_zero hδ 1 x' ha) ((relu_abs _).trans e2) hx').1
  have hb := (abs_nonneg _).trans hy
  exact size_one hδ (by norm_num) e4 (by positivity) (by linarith)

/-- The sum of two rounded maxima (or minima) of products, minus a product. -/
theorem three_error {rd : α → α} {δ : α} (hδ : 0 ≤ δ) (h : RelError rd δ) {x y z x' y' z' S : α} (hx : |x - x'| ≤ ((1 + δ) ^ 1 - 1) * S)
    (hy : |y - y'| ≤ ((1 + δ) ^ 1 - 1) * S) (hz : |z - z'| ≤ ((1 + δ) ^ 1 - 1) * S) (hx' : |x'| ≤ S) (hy' : |y'| ≤ S) (hz' : |z'| ≤ S) :
    |rd (rd (x + y) - z) - (x' + y' - z')| ≤ ((1 + δ) ^ 3 - 1) * (3 * S) := by
  have hS := (abs_nonneg _).trans hx'
  obtain ⟨e1, e2⟩ := round_add hδ h 1 hx hy hx' hy'
  have e3 : |-z - -z'| ≤ ((1 + δ) ^ (1 + 1) - 1) * S := by
    rw [neg_sub_neg, abs_sub_comm]
    exact hz.trans (gamma_mono hδ (by norm_num) hS)
  have e4 := (round_add hδ h _ e1 e3 e2 (by rwa [abs_neg])).1
  rw [← sub_eq_add_neg, ← sub_eq_add_neg] at e4
  exact size_one hδ (by norm_num) e4 (by positivity) (by linarith)

theorem abs_max_le {x y S : α} (hx : |x| ≤ S) (hy : |y| ≤ S) : |max x y| ≤ S := by
  rw [abs_le] at *
  exact ⟨hx.1.trans (le_max_left _ _), max_le hx.2 hy.2⟩

theorem abs_min_le {x y S : α} (hx : |x| ≤ S) (hy : |y| ≤ S) : |min x y| ≤ S := by
  rw [abs_le] at *
  exact ⟨le_min hx.1 hy.1, (min_le_left _ _).trans hx.2⟩

theorem MergeOp.rounded_call {rd : α → α} {δ : α} (hδ : 0 ≤ δ) (h : RelError rd δ) (bn : α → α → α → α → α → α) (op : MergeOp) (x y : α) :
    |op.roundedCall rd x y - op.eval x y| ≤ (roundError δ bn).merge op |x| |y| := by
  have hx := abs_nonneg x
  have hy := abs_nonneg y
  cases op with
  | add => exact size_one hδ (by norm_num) (sum_error hδ h le_rfl le_rfl).1 (by positivity) le_rfl
  | average =>
    obtain ⟨e1, e2⟩ := sum_error hδ h (le_refl |x|) (le_refl |y|)
    have e3 : |rd (x + y) / 2 - (x + y) / 2| ≤ ((1 + δ) ^ 1 - 1) * ((|x| + |y|) / 2) := by
      rw [← sub_div, abs_div, abs_two, ← mul_div_assoc]
      gcongr
    have e4 := (round_add hδ h 1 e3 (near_zero hδ 1 0 le_rfl) (by rw [abs_div, abs_two]; gcongr) (by rw [abs_zero])).1
    rw [add_zero, add_zero, add_zero] at e4
    exact size_one hδ (by norm_num) e4 (by positivity) le_rfl
  | subtract =>
    have := (sum_error hδ h (le_refl |x|) (show |-y| ≤ |y| by rw [abs_neg])).1
    rw [← sub_eq_add_neg] at this
    exact size_one hδ (by norm_num) this (by positivity) le_rfl
  | maximum => exact near_zero hδ 3 _ (by simp only [MergeOp.size]; positivity)
  | minimum => exact near_zero hδ 3 _ (by simp only [MergeOp.size]; positivity)
  | multiply => exact size_one hδ (by norm_num) (prod_error hδ h le_rfl le_rfl).1 (by positivity) (by simp only [MergeOp.size]; nlinarith [mul_nonneg hx hy])

theorem MergeOp.rounded_ibp {rd : α → α} {δ : α} (hδ : 0 ≤ δ) (h : RelError rd δ) (bn : α → α → α → α → α → α) (eps : α) (op : MergeOp)
    (u0 l0 u1 l1 : κ → α) (k : κ) :
    |(op.roundedIbp rd (u0 k) (l0 k) (u1 k) (l1 k)).1 - (op.forward (emptyDomain α) .ibp eps (ibpOnly u0 l0) (ibpOnly u1 l1)).uc k| ≤
        (roundError δ bn).merge op (max |u0 k| |l0 k|) (max |u1 k| |l1 k|) ∧
      |(op.roundedIbp rd (u0 k) (l0 k) (u1 k) (l1 k)).2 - (op.forward (emptyDomain α) .ibp eps (ibpOnly u0 l0) (ibpOnly u1 l1)).lc k| ≤
        (roundError δ bn).merge op (max |u0 k| |l0 k|) (max |u1 k| |l1 k|) := by
  have hib : getIbp .ibp = true := rfl
  have h0u := le_max_left |u0 k| |l0 k|
  have h0l := le_max_right |u0 k| |l0 k|
  have h1u := le_max_left |u1 k| |l1 k|
  have h1l := le_max_right |u1 k| |l1 k|
  have ha := (abs_nonneg _).trans h0u
  have hb := (abs_nonneg _).trans h1u
  generalize max |u0 k| |l0 k| = a at *
  generalize max |u1 k| |l1 k| = b at *
  cases op with
  | add =>
    simp only [MergeOp.roundedIbp, MergeOp.forward, addLayerT, hib, if_true, List.map_cons, List.map_nil, List.sum_cons, List.sum_nil, add_zero,
      tighten_ibp_eq, ibpOnly]
    exact ⟨size_one hδ (by norm_num) (sum_error hδ h h0u h1u).1 (by positivity) le_rfl,
      size_one hδ (by norm_num) (sum_error hδ h h0l h1l).1 (by positivity) le_rfl⟩
  | average =>
    have key : ∀ x y : α, |x| ≤ a → |y| ≤ b → |rd (rd (x + y) / 2) - (x + y) / 2| ≤ ((1 + δ) ^ 3 - 1) * ((a + b) / 2) := by
      intro x y hx hy
      obtain ⟨e1, e2⟩ := sum_error hδ h hx hy
      have e3 : |rd (x + y) / 2 - (x + y) / 2| ≤ ((1 + δ) ^ 1 - 1) * ((a + b) / 2) := by
        rw [← sub_div, abs_div, abs_two, ← mul_div_assoc]
        gcongr
      have e4 := (round_add hδ h 1 e3 (near_zero hδ 1 0 le_rfl) (by rw [abs_div, abs_two]; gcongr) (by rw [abs_zero])).1
      rw [add_zero, add_zero, add_zero] at e4
      exact size_one hδ (by norm_num) e4 (by positivity) le_rfl
    have e : ((([ibpOnly u0 l0, ibpOnly u1 l1] : List (Full Unit Empty κ α)).length : ℕ) : α) = 2 := by simp
    simp only [MergeOp.roundedIbp, MergeOp.forward, averageLayerT, hib, if_true, e, List.map_cons, List.map_nil, List.sum_cons, List.sum_nil,
      add_zero, tighten_ibp_eq]
    exact ⟨key _ _ h0u h1u, key _ _ h0l h1l⟩
  | subtract =>
    simp only [MergeOp.roundedIbp, MergeOp.forward, subtractT, addT, minusT, hib, if_true, tighten_ibp_eq, ibpOnly]
    exact ⟨size_one hδ (by norm_num) (sum_error hδ h h0u (show |-l1 k| ≤ b by rwa [abs_neg])).1 (by positivity) le_rfl,
      size_one hδ (by norm_num) (sum_error hδ h h0l (show |-u1 k| ≤ b by rwa [abs_neg])).1 (by positivity) le_rfl⟩
  | maximum =>
    simp only [MergeOp.roundedIbp, roundedMaxIbp, MergeOp.forward, maximumLayerT, List.foldl_cons, List.foldl_nil, maximumT, reluT, subtractT, addT,
      minusT, hib, if_true, tighten_ibp_eq, ibpOnly]
    exact ⟨maxIbp_error hδ h h0l h0u h1u, maxIbp_error hδ h h0u h0l h1l⟩
  | minimum =>
    simp only [MergeOp.roundedIbp, roundedMaxIbp, MergeOp.forward, minimumLayerT, List.map_cons, List.map_nil, maximumLayerT, List.foldl_cons,
      List.foldl_nil, maximumT, reluT, subtractT, addT, minusT, hib, if_true, tighten_ibp_eq, ibpOnly]
    rw [neg_sub_neg, abs_sub_comm, neg_sub_neg, abs_sub_comm (relu _ + -l0 k)]
    exact ⟨maxIbp_error hδ h (by rwa [abs_neg]) (by rwa [abs_neg]) (by rwa [abs_neg]),
      maxIbp_error hδ h (by rwa [abs_neg]) (by rwa [abs_neg]) (by rwa [abs_neg])⟩
  | multiply =>
    simp only [MergeOp.roundedIbp, MergeOp.forward, multiplyLayerT, List.foldl_cons, List.foldl_nil, multiplyT, hib, if_true, tighten_ibp_eq, ibpOnly]
    have p1 := prod_error hδ h h0u h1u
    have p2 := prod_error hδ h h0u h1l
    have p3 := prod_error hδ h h0l h1u
    have p4 := prod_error hδ h h0l h1l
    refine ⟨?_, three_error hδ h (min_drift p4.1 p3.1) (min_drift p4.1 p2.1) p4.1 (abs_min_le p4.2 p3.2) (abs_min_le p4.2 p2.2) p4.2⟩
    rw [mul_comm (u1 k), mul_comm (u1 k), mul_comm (l1 k)]
    exact min_drift (three_error hδ h (max_drift p1.1 p2.1) (max_drift p2.1 p4.1) p2.1 (abs_max_le p1.2 p2.2) (abs_max_le p2.2 p4.2) p2.2)
      (three_error hδ h (max_drift p1.1 p3.1) (max_drift p3.1 p4.1) p3.1 (abs_max_le p1.2 p3.2) (abs_max_le p3.2 p4.2) p3.2)

theorem Net.rounded_runs {rd : α → α} {δ : α} (hδ : 0 ≤ δ) (h : RelError rd δ) (bn : α → α → α → α → α → α) (N : Net α ι κ) (p : ι → α) (v : κ → α)
    (hv : N.RoundedCall rd bn p v) : N.Runs (roundError δ bn) p v := by
  induction N with
  | input => exact hv
  | layer n l ih =>
    obtain ⟨w, hw, e⟩ := hv
    exact ⟨w, ih w hw, fun k => l.rounded_call hδ h bn w v e k⟩
  | merge op n0 n1 ih0 ih1 =>
    obtain ⟨w0, w1, hw0, hw1, e⟩ := hv
    exact ⟨w0, w1, ih0 w0 hw0, ih1 w1 hw1, fun k => by rw [e k]; exact op.rounded_call hδ h bn _ _⟩

theorem Net.rounded_runsIbp {rd : α → α} {δ : α} (hδ : 0 ≤ δ) (h : RelError rd δ) (bn : α → α → α → α → α → α) (eps : α) (sl : Slope)
    (N : Net α ι κ) (up lo : ι → α) (u l : κ → α) (hv : N.RoundedIbp rd bn up lo u l) : N.RunsIbp (roundError δ bn) eps sl up lo u l := by
  induction N with
  | input => exact hv
  | layer n lay ih =>
    obtain ⟨u0, l0, h0, e⟩ := hv
    exact ⟨u0, l0, ih u0 l0 h0, fun k => lay.rounded_ibp hδ h bn eps sl u0 l0 u l e k⟩
  | merge op n0 n1 ih0 ih1 =>
    obtain ⟨u0, l0, u1, l1, h0, h1, e⟩ := hv
    refine ⟨u0, l0, u1, l1, ih0 u0 l0 h0, ih1 u1 l1 h1, fun k => ?_⟩
    have := op.rounded_ibp hδ h bn eps u0 l0 u1 l1 k
    rw [← e k] at this
    exact this

/-- C123: in rounded arithmetic, whatever the order of the sums, the computed outputs lie within the computed bounds up to the slack
`Net.slackWith (roundError δ bn)`. -/
theorem C123_rounded {rd : α → α} {δ : α} (hδ : 0 ≤ δ) (h : RelError rd δ) (bn : α → α → α → α → α → α)
    (hbn : ∀ g b m s x y, 0 ≤ x → x ≤ y → bn g b m s x ≤ bn g b m s y) (σ : α) (hσ : 0 < σ) (N : Net α ι κ) (hN : N.WF) (hsd : N.SdAbove σ)
    (up lo p A s : ι → α) (hu : ∀ i, |up i| ≤ A i) (hl : ∀ i, |lo i| ≤ A i) (hpA : ∀ i, |p i| ≤ A i) (hs : ∀ i, 0 ≤ s i)
    (hp : ∀ i, lo i - s i ≤ p i ∧ p i ≤ up i + s i) (v u l : κ → α) (hv : N.RoundedCall rd bn p v) (hb : N.RoundedIbp rd bn up lo u l) (k : κ) :
    l k - N.slackWith (roundError δ bn) σ A s k ≤ v k ∧ v k ≤ u k + N.slackWith (roundError δ bn) σ A s k :=
  C123_slack _ (roundError_mono hδ bn hbn) 1 one_pos .vSlope σ hσ N hN hsd up lo p A s hu hl hpA hs hp v u l (N.rounded_runs hδ h bn p v hv)
    (N.rounded_runsIbp hδ h bn 1 .vSlope up lo u l hb) k

/-! ### Such computations exist -/

theorem exists_tree {τ : Type} (l : List τ) (a : τ) : ∃ t : SumTree τ, t.leaves = a :: l := by
  induction l generalizing a with
  | nil => exact ⟨.leaf a, rfl⟩
  | cons b l ih =>
    obtain ⟨t, ht⟩ := ih b
    exact ⟨.node (.leaf a) t, by simp [SumTree.leaves, ht]⟩

theorem exists_isSum {τ : Type} [Fintype τ] (rd : α → α) (p : τ → α) : ∃ v, IsSum rd p v := by
  rcases isEmpty_or_nonempty τ with h | h
  · exact ⟨0, .inl ⟨h, rfl⟩⟩
  · have hne : (Finset.univ : Finset τ).toList ≠ [] := by simp [Finset.univ_nonempty.ne_empty]
    obtain ⟨a, l, e⟩ := List.exists_cons_of_ne_nil hne
    obtain ⟨t, ht⟩ := exists_tree l a
    exact ⟨t.sum rd p, .inr ⟨t, by rw [ht, ← e]; exact Finset.coe_toList _, rfl⟩⟩

/-- C123: every network has outputs and bounds computed in rounded arithmetic. -/
theorem C123_rounded_exists (rd : α → α) (bn : α → α → α → α → α → α) (hbn : ∀ g b m s x, 0 ≤ bn g b m s x) (N : Net α ι κ) (p up lo : ι → α) :
    (∃ v, N.RoundedCall rd bn p v) ∧ ∃ u l, N.RoundedIbp rd bn up lo u l := by
  constructor
  · induction N with
    | input => exact ⟨p, rfl⟩
    | layer n l ih =>
      obtain ⟨w, hw⟩ := ih
      suffices h : ∃ v, l.RoundedCall rd bn w v from h.elim fun v hv => ⟨v, w, hw, hv⟩
      cases l with
      | dense kernel bias =>
        choose d hd using fun o => exists_isSum rd fun t => w t * kernel t o
        exact ⟨_, fun o => ⟨d o, hd o, rfl⟩⟩
      | linear L kernel bias =>
        choose d hd using fun o => exists_isSum rd fun t => (L.src o t).elim 0 w * kernel (L.kidx o t)
        exact ⟨_, fun o => ⟨d o, hd o, rfl⟩⟩
      | relu gf gb => exact ⟨_, fun k => rfl⟩
      | batchNorm gamma beta mean sd => exact ⟨fun k => gamma k * ((w k - mean k) / sd k) + beta k, fun k => by simpa using hbn _ _ _ _ _⟩
      | reshape e => exact ⟨_, fun k => rfl⟩
      | skip => exact ⟨_, fun k => rfl⟩
    | merge op n0 n1 ih0 ih1 =>
      obtain ⟨w0, hw0⟩ := ih0
      obtain ⟨w1, hw1⟩ := ih1
      exact ⟨_, w0, w1, hw0, hw1, fun k => rfl⟩
  · induction N with
    | input => exact ⟨up, lo, rfl, rfl⟩
    | layer n lay ih =>
      obtain ⟨u0, l0, h0⟩ := ih
      suffices h : ∃ u l, lay.RoundedIbp rd bn u0 l0 u l from h.elim fun u hu => hu.elim fun l hl => ⟨u, l, u0, l0, h0, hl⟩
      cases lay with
      | dense kernel bias =>
        choose a ha using fun o => exists_isSum rd fun t => u0 t * max 0 (kernel t o)
        choose b hb using fun o => exists_isSum rd fun t => l0 t * min 0 (kernel t o)
        choose a' ha' using fun o => exists_isSum rd fun t => l0 t * max 0 (kernel t o)
        choose b' hb' using fun o => exists_isSum rd fun t => u0 t * min 0 (kernel t o)
        exact ⟨_, _, fun o => ⟨⟨a o, b o, ha o, hb o, rfl⟩, a' o, b' o, ha' o, hb' o, rfl⟩⟩
      | linear L kernel bias =>
        choose a ha using fun o => exists_isSum rd fun t => (L.src o t).elim 0 u0 * max 0 (kernel (L.kidx o t))
        choose b hb using fun o => exists_isSum rd fun t => (L.src o t).elim 0 l0 * min 0 (kernel (L.kidx o t))
        choose a' ha' using fun o => exists_isSum rd fun t => (L.src o t).elim 0 l0 * max 0 (kernel (L.kidx o t))
        choose b' hb' using fun o => exists_isSum rd fun t => (L.src o t).elim 0 u0 * min 0 (kernel (L.kidx o t))
        exact ⟨_, _, fun o => ⟨⟨a o, b o, ha o, hb o, rfl⟩, a' o, b' o, ha' o, hb' o, rfl⟩⟩
      | relu gf gb => exact ⟨_, _, fun k => ⟨rfl, rfl⟩⟩
      | batchNorm gamma beta mean sd =>
        exact ⟨fun k => max 0 (gamma k) * ((u0 k - mean k) / sd k) + min 0 (gamma k) * ((l0 k - mean k) / sd k) + beta k,
          fun k => max 0 (gamma k) * ((l0 k - mean k) / sd k) + min 0 (gamma k) * ((u0 k - mean k) / sd k) + beta k,
          fun k => ⟨by simpa using hbn _ _ _ _ _, by simpa using hbn _ _ _ _ _⟩⟩
      | reshape e => exact ⟨_, _, fun k => ⟨rfl, rfl⟩⟩
      | skip => exact ⟨_, _, fun k => ⟨rfl, rfl⟩⟩
    | merge op n0 n1 ih0 ih1 =>
      obtain ⟨u0, l0, h0⟩ := ih0
      obtain ⟨u1, l1, h1⟩ := ih1
      exact ⟨_, _, u0, l0, u1, l1, h0, h1, fun k => Prod.ext rfl rfl⟩

/-- C123: in rounded arithmetic, a computed margin larger than the two slacks is a certificate for the computed outputs. -/
theorem C123_rounded_certificate {rd : α → α} {δ : α} (hδ : 0 ≤ δ) (h : RelError rd δ) (bn : α → α → α → α → α → α)
    (hbn : ∀ g b m s x y, 0 ≤ x → x ≤ y → bn g b m s x ≤ bn g b m s y) (σ : α) (hσ : 0 < σ) (N : Net α ι κ) (hN : N.WF) (hsd : N.SdAbove σ)
    (up lo A : ι → α) (hu : ∀ i, |up i| ≤ A i) (hl : ∀ i, |lo i| ≤ A i) (u l : κ → α) (hb : N.RoundedIbp rd bn up lo u l) (c j : κ)
    (hm : u j + N.slackWith (roundError δ bn) σ A (fun _ => 0) j < l c - N.slackWith (roundError δ bn) σ A (fun _ => 0) c) (p : ι → α)
    (hp : ∀ i, lo i ≤ p i ∧ p i ≤ up i) (v : κ → α) (hv : N.RoundedCall rd bn p v) : v j < v c :=
  C123_certificate _ (roundError_mono hδ bn hbn) 1 one_pos .vSlope σ hσ N hN hsd up lo A hu hl u l
    (N.rounded_runsIbp hδ h bn 1 .vSlope up lo u l hb) c j hm p hp v (N.rounded_runs hδ h bn p v hv)

end

/-- A residual block: `ReLU(Dense(x)) + x`. -/
def residualNet : Net ℚ (Fin 2) (Fin 2) :=
  .merge .add (.layer (.layer .input (.dense (fun i j => if i = j then 1 / 2 else -1 / 3) fun _ => 1 / 10)) (.relu (fun _ => 1) fun _ => 1)) .input

/-- C123 on a residual block in float32, on the box `[-1,1]²`: the computed outputs are within `2e-6` of the computed bounds. -/
example (p v u l : Fin 2 → ℚ) (hp : ∀ i, -1 ≤ p i ∧ p i ≤ 1) (hv : residualNet.RoundedCall (roundNearest 24) (fun _ _ _ _ _ => 0) p v)
    (hb : residualNet.RoundedIbp (roundNearest 24) (fun _ _ _ _ _ => 0) (fun _ => 1) (fun _ => -1) u l) (k : Fin 2) :
    l k - 2 / 1000000 ≤ v k ∧ v k ≤ u k + 2 / 1000000 := by
  have h := C123_rounded (by positivity) (C118_float_error 24) (fun _ _ _ _ _ => 0) (fun _ _ _ _ _ _ _ _ => le_rfl) 1 one_pos
    residualNet (by simp [residualNet, Net.WF, Lay.WF]) (by simp [residualNet, Net.SdAbove, Lay.SdAbove]) (fun _ => 1) (fun _ => -1) p (fun _ => 1) (fun _ => 0) (by simp) (by simp)
    (fun i => abs_le.mpr (hp i)) (fun _ => le_rfl) (by simpa using hp) v u l hv hb k
  have e : residualNet.slackWith (roundError ((1 / 2) ^ 24) fun _ _ _ _ _ => 0) 1 (fun _ => 1) (fun _ => 0) k ≤ 2 / 1000000 := by
    clear h; revert k; decide +kernel
  constructor <;> linarith [h.1, h.2]

end Decomon
