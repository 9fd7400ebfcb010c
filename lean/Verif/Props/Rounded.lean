import Verif.Model.Rounded
import Mathlib.Algebra.Order.BigOperators.Group.List
import Mathlib.Tactic.Linarith
import Mathlib.Tactic.Ring
import Mathlib.Tactic.Positivity
import Mathlib.Tactic.NormNum

/-! Property C118: interval bounds in rounded arithmetic. -/

namespace Decomon

section
variable {κ κ' α : Type*} [Field α] [LinearOrder α] [IsStrictOrderedRing α]

/-! ### Specification -/

/-- The standard model of rounding: a relative error of at most `δ`. -/
def RelError (rd : α → α) (δ : α) : Prop := ∀ x, |rd x - x| ≤ δ * |x|

/-- The five sums of an output have the same terms. -/
def DenseSums.SameTerms (t : DenseSums κ) : Prop :=
  t.uPos.leaves.Perm t.self.leaves ∧ t.uNeg.leaves.Perm t.self.leaves ∧ t.lPos.leaves.Perm t.self.leaves ∧ t.lNeg.leaves.Perm t.self.leaves

/-- The largest depth of the five sums of an output. -/
def DenseSums.depth (t : DenseSums κ) : ℕ :=
  max t.self.depth (max (max t.uPos.depth t.uNeg.depth) (max t.lPos.depth t.lNeg.depth))

/-- Every sum of a chain has the terms that it should have. -/
def RChain.SameTerms : {κ ν : Type} → RChain α κ ν → Prop
  | _, _, .nil => True
  | _, _, .dense _ _ t rest => (∀ o, (t o).SameTerms) ∧ rest.SameTerms
  | _, _, .relu rest => rest.SameTerms

/-- How far a computed output can be outside the computed bounds `b`, when the inputs are at most `s` outside. -/
def RChain.slack (rd : α → α) (δ : α) : {κ ν : Type} → RChain α κ ν → (κ → α) × (κ → α) → (κ → α) → ν → α
  | _, _, .nil, _, s => s
  | _, _, .dense kernel bias t rest, b, s => rest.slack rd δ (roundedDenseIbp rd t kernel bias b) fun o =>
      ((t o).self.leaves.map fun k => |kernel k o| * s k).sum +
        2 * (((1 + δ) ^ ((t o).depth + 3) - 1) * (((t o).self.leaves.map fun k => |kernel k o| * (max |b.1 k| |b.2 k| + s k)).sum + |bias o|))
  | _, _, .relu rest, b, s => rest.slack rd δ (fun k => max (b.1 k) 0, fun k => max (b.2 k) 0) s

/-! ### Errors of sums -/

theorem round_add {rd : α → α} {δ : α} (hδ : 0 ≤ δ) (h : RelError rd δ) {a b A B SA SB : α} (n : ℕ) (ha : |a - A| ≤ ((1 + δ) ^ n - 1) * SA)
    (hb : |b - B| ≤ ((1 + δ) ^ n - 1) * SB) (hA : |A| ≤ SA) (hB : |B| ≤ SB) :
    |rd (a + b) - (A + B)| ≤ ((1 + δ) ^ (n + 1) - 1) * (SA + SB) ∧ |A + B| ≤ SA + SB := by
  have e1 : |a| ≤ |a - A| + |A| := by simpa using abs_add_le (a - A) A
  have e2 : |b| ≤ |b - B| + |B| := by simpa using abs_add_le (b - B) B
  have e3 := h (a + b)
  have e4 : |a + b| ≤ |a| + |b| := abs_add_le a b
  have e5 : |rd (a + b) - (A + B)| ≤ |rd (a + b) - (a + b)| + (|a - A| + |b - B|) := by
    have := abs_add_le (rd (a + b) - (a + b)) ((a - A) + (b - B))
    have h2 := abs_add_le (a - A) (b - B)
    rw [show rd (a + b) - (a + b) + (a - A + (b - B)) = rd (a + b) - (A + B) by ring] at this
    linarith
  refine ⟨?_, (abs_add_le A B).trans (add_le_add hA hB)⟩
  have e6 : |a + b| ≤ (1 + δ) ^ n * (SA + SB) := by
    have : (1 + δ) ^ n * (SA + SB) = ((1 + δ) ^ n - 1) * SA + ((1 + δ) ^ n - 1) * SB + (SA + SB) := by ring
    rw [this]; linarith
  have e7 : δ * |a + b| ≤ δ * ((1 + δ) ^ n * (SA + SB)) := mul_le_mul_of_nonneg_left e6 hδ
  have : ((1 + δ) ^ (n + 1) - 1) * (SA + SB) = δ * ((1 + δ) ^ n * (SA + SB)) + (((1 + δ) ^ n - 1) * SA + ((1 + δ) ^ n - 1) * SB) := by ring
  rw [this]; linarith

theorem gamma_mono {δ : α} (hδ : 0 ≤ δ) {m n : ℕ} (h : m ≤ n) {S : α} (hS : 0 ≤ S) : ((1 + δ) ^ m - 1) * S ≤ ((1 + δ) ^ n - 1) * S :=
  mul_le_mul_of_nonneg_right (by linarith [pow_le_pow_right₀ (show 1 ≤ 1 + δ by linarith) h]) hS

theorem sum_abs_nonneg (p : κ → α) (l : List κ) : 0 ≤ (l.map fun k => |p k|).sum :=
  List.sum_nonneg (by simp only [List.mem_map]; rintro _ ⟨k, -, rfl⟩; exact abs_nonneg _)

theorem tree_error {rd : α → α} {δ : α} (hδ : 0 ≤ δ) (h : RelError rd δ) (p : κ → α) (t : SumTree κ) :
    |t.sum rd p - (t.leaves.map p).sum| ≤ ((1 + δ) ^ (t.depth + 1) - 1) * (t.leaves.map fun k => |p k|).sum ∧
      |(t.leaves.map p).sum| ≤ (t.leaves.map fun k => |p k|).sum := by
  induction t with
  | leaf k =>
    simp only [SumTree.sum, SumTree.leaves, SumTree.depth, List.map_cons, List.map_nil, List.sum_cons, List.sum_nil, add_zero, zero_add, pow_one]
    exact ⟨by rw [add_sub_cancel_left]; exact h (p k), le_rfl⟩
  | node a b iha ihb =>
    simp only [SumTree.sum, SumTree.leaves, SumTree.depth, List.map_append, List.sum_append]
    exact round_add hδ h (max a.depth b.depth + 1)
      (iha.1.trans (gamma_mono hδ (by omega) (sum_abs_nonneg p _))) (ihb.1.trans (gamma_mono hδ (by omega) (sum_abs_nonneg p _))) iha.2 ihb.2

theorem dot_error {rd : α → α} {δ : α} (hδ : 0 ≤ δ) (h : RelError rd δ) (w x : κ → α) (t : SumTree κ) (l : List κ) (hl : t.leaves.Perm l) (n : ℕ)
    (hn : t.depth + 1 ≤ n) :
    |roundedDot rd t w x - (l.map fun k => x k * w k).sum| ≤ ((1 + δ) ^ n - 1) * (l.map fun k => |x k * w k|).sum ∧
      |(l.map fun k => x k * w k).sum| ≤ (l.map fun k => |x k * w k|).sum := by
  have := tree_error hδ h (fun k => x k * w k) t
  rw [(hl.map _).sum_eq, (hl.map fun k => |x k * w k|).sum_eq] at this
  exact ⟨this.1.trans (gamma_mono hδ hn (sum_abs_nonneg _ _)), this.2⟩

theorem sum_le_sum' (l : List κ) (p q : κ → α) (h : ∀ k, p k ≤ q k) : (l.map p).sum ≤ (l.map q).sum :=
  List.sum_le_sum fun k _ => h k

/-- One layer: the upper bound. -/
theorem dense_upper {rd : α → α} {δ : α} (hδ : 0 ≤ δ) (h : RelError rd δ) (w : κ → α) (c : α) (l : List κ) (ts tp tn : SumTree κ)
    (hs : ts.leaves.Perm l) (hp : tp.leaves.Perm l) (hn : tn.leaves.Perm l) (n : ℕ) (ds : ts.depth ≤ n) (dp : tp.depth ≤ n) (dn : tn.depth ≤ n)
    (lo up x s : κ → α) (hx : ∀ k, lo k - s k ≤ x k ∧ x k ≤ up k + s k) (hs0 : ∀ k, 0 ≤ s k) :
    rd (roundedDot rd ts w x + c) ≤
      rd (rd (roundedDot rd tp (fun k => max 0 (w k)) up + roundedDot rd tn (fun k => min 0 (w k)) lo) + c) +
        ((l.map fun k => |w k| * s k).sum +
          2 * (((1 + δ) ^ (n + 3) - 1) * ((l.map fun k => |w k| * (max |lo k| |up k| + s k)).sum + |c|))) := by
  have c0 : ∀ m : ℕ, |c - c| ≤ ((1 + δ) ^ m - 1) * |c| := by
    intro m
    rw [sub_self, abs_zero]
    exact mul_nonneg (by linarith [one_le_pow₀ (show 1 ≤ 1 + δ by linarith) (n := m)]) (abs_nonneg c)
  obtain ⟨y1, y2⟩ := dot_error hδ h w x ts l hs (n + 2) (by omega)
  obtain ⟨y3, -⟩ := round_add hδ h (n + 2) y1 (c0 _) y2 le_rfl
  obtain ⟨u1, u2⟩ := dot_error hδ h (fun k => max 0 (w k)) up tp l hp (n + 1) (by omega)
  obtain ⟨v1, v2⟩ := dot_error hδ h (fun k => min 0 (w k)) lo tn l hn (n + 1) (by omega)
  obtain ⟨w1, w2⟩ := round_add hδ h (n + 1) u1 v1 u2 v2
  obtain ⟨w3, -⟩ := round_add hδ h (n + 2) w1 (c0 _) w2 le_rfl
  have hM : ∀ k, |x k| ≤ max |lo k| |up k| + s k := by
    intro k
    have h1 := neg_abs_le (lo k)
    have h2 := le_abs_self (up k)
    have h3 := le_max_left |lo k| |up k|
    have h4 := le_max_right |lo k| |up k|
    rw [abs_le]
    constructor <;> linarith [(hx k).1, (hx k).2]
  have sx : (l.map fun k => |x k * w k|).sum ≤ (l.map fun k => |w k| * (max |lo k| |up k| + s k)).sum :=
    sum_le_sum' l _ _ fun k => by rw [abs_mul, mul_comm]; exact mul_le_mul_of_nonneg_left (hM k) (abs_nonneg _)
  have sw : (l.map fun k => |up k * max 0 (w k)|).sum + (l.map fun k => |lo k * min 0 (w k)|).sum ≤
      (l.map fun k => |w k| * (max |lo k| |up k| + s k)).sum := by
    rw [← List.sum_map_add]
    refine sum_le_sum' l _ _ fun k => ?_
    have h3 := le_max_left |lo k| |up k|
    have h4 := le_max_right |lo k| |up k|
    rw [abs_mul, abs_mul]
    rcases le_total 0 (w k) with hw | hw
    · rw [max_eq_right hw, min_eq_left hw, abs_zero, mul_zero, add_zero, mul_comm]
      exact mul_le_mul_of_nonneg_left (by linarith [hs0 k]) (abs_nonneg _)
    · rw [max_eq_left hw, min_eq_right hw, abs_zero, mul_zero, zero_add, mul_comm]
      exact mul_le_mul_of_nonneg_left (by linarith [hs0 k]) (abs_nonneg _)
  have ex : (l.map fun k => x k * w k).sum ≤
      (l.map fun k => up k * max 0 (w k)).sum + (l.map fun k => lo k * min 0 (w k)).sum + (l.map fun k => |w k| * s k).sum := by
    rw [← List.sum_map_add, ← List.sum_map_add]
    refine sum_le_sum' l _ _ fun k => ?_
    rcases le_total 0 (w k) with hw | hw
    · rw [max_eq_right hw, min_eq_left hw, abs_of_nonneg hw]
      nlinarith [(hx k).2]
    · rw [max_eq_left hw, min_eq_right hw, abs_of_nonpos hw]
      nlinarith [(hx k).1]
  have g : 0 ≤ (1 + δ) ^ (n + 3) - 1 := by linarith [one_le_pow₀ (show 1 ≤ 1 + δ by linarith) (n := n + 3)]
  have b1 := mul_le_mul_of_nonneg_left (show (l.map fun k => |x k * w k|).sum + |c| ≤ (l.map fun k => |w k| * (max |lo k| |up k| + s k)).sum + |c| by linarith) g
  have b2 := mul_le_mul_of_nonneg_left (show (l.map fun k => |up k * max 0 (w k)|).sum + (l.map fun k => |lo k * min 0 (w k)|).sum + |c| ≤
    (l.map fun k => |w k| * (max |lo k| |up k| + s k)).sum + |c| by linarith) g
  have y4 := (abs_le.mp y3).2
  have w4 := (abs_le.mp w3).1
  linarith

/-- The rounding seen from the other side. -/
def flipRound (rd : α → α) (x : α) : α := - rd (-x)

theorem dot_flip (rd : α → α) (t : SumTree κ) (w x : κ → α) : roundedDot (flipRound rd) t w (fun k => - x k) = - roundedDot rd t w x := by
  unfold roundedDot
  induction t with
  | leaf k => simp [SumTree.sum, flipRound]
  | node a b iha ihb => simp only [SumTree.sum, flipRound, iha, ihb]; congr 2; ring

theorem relError_flip {rd : α → α} {δ : α} (h : RelError rd δ) : RelError (flipRound rd) δ := by
  intro x
  have := h (-x)
  rw [abs_neg] at this
  rwa [flipRound, ← abs_neg, neg_sub, sub_neg_eq_add, add_comm, ← sub_neg_eq_add]

/-- One layer: the lower bound. -/
theorem dense_lower {rd : α → α} {δ : α} (hδ : 0 ≤ δ) (h : RelError rd δ) (w : κ → α) (c : α) (l : List κ) (ts tp tn : SumTree κ)
    (hs : ts.leaves.Perm l) (hp : tp.leaves.Perm l) (hn : tn.leaves.Perm l) (n : ℕ) (ds : ts.depth ≤ n) (dp : tp.depth ≤ n) (dn : tn.depth ≤ n)
    (lo up x s : κ → α) (hx : ∀ k, lo k - s k ≤ x k ∧ x k ≤ up k + s k) (hs0 : ∀ k, 0 ≤ s k) :
    rd (rd (roundedDot rd tp (fun k => max 0 (w k)) lo + roundedDot rd tn (fun k => min 0 (w k)) up) + c) -
        ((l.map fun k => |w k| * s k).sum +
          2 * (((1 + δ) ^ (n + 3) - 1) * ((l.map fun k => |w k| * (max |lo k| |up k| + s k)).sum + |c|))) ≤
      rd (roundedDot rd ts w x + c) := by
  have := dense_upper hδ (relError_flip h) w (-c) l ts tp tn hs hp hn n ds dp dn (fun k => - up k) (fun k => - lo k) (fun k => - x k) s
    (fun k => ⟨by linarith [(hx k).2], by linarith [(hx k).1]⟩) hs0
  simp only [dot_flip, abs_neg, max_comm |up _|] at this
  rw [show ∀ a b : α, flipRound rd (-a + -b) = - rd (a + b) from fun a b => by unfold flipRound; congr 2; ring,
    show ∀ a b : α, flipRound rd (-a + -b) = - rd (a + b) from fun a b => by unfold flipRound; congr 2; ring,
    show ∀ a b : α, flipRound rd (-a + -b) = - rd (a + b) from fun a b => by unfold flipRound; congr 2; ring] at this
  linarith

end

/-! ### C118 -/

section
variable {α : Type} [Field α] [LinearOrder α] [IsStrictOrderedRing α]

theorem slack_nonneg (rd : α → α) {δ : α} (hδ : 0 ≤ δ) {κ ν : Type} (net : RChain α κ ν) :
    ∀ (b : (κ → α) × (κ → α)) (s : κ → α), (∀ k, 0 ≤ s k) → ∀ o, 0 ≤ net.slack rd δ b s o := by
  induction net with
  | nil => intro b s hs; exact hs
  | dense kernel bias t rest ih =>
    intro b s hs
    refine ih _ _ fun o => ?_
    have g : 0 ≤ (1 + δ) ^ ((t o).depth + 3) - 1 := by linarith [one_le_pow₀ (show 1 ≤ 1 + δ by linarith) (n := (t o).depth + 3)]
    have h1 : 0 ≤ ((t o).self.leaves.map fun k => |kernel k o| * s k).sum :=
      List.sum_nonneg (by simp only [List.mem_map]; rintro _ ⟨k, -, rfl⟩; exact mul_nonneg (abs_nonneg _) (hs k))
    have h2 : 0 ≤ ((t o).self.leaves.map fun k => |kernel k o| * (max |b.1 k| |b.2 k| + s k)).sum :=
      List.sum_nonneg (by
        simp only [List.mem_map]; rintro _ ⟨k, -, rfl⟩
        exact mul_nonneg (abs_nonneg _) (add_nonneg ((abs_nonneg _).trans (le_max_left _ _)) (hs k)))
    have := abs_nonneg (bias o)
    positivity
  | relu rest ih => intro b s hs; exact ih _ s hs

/-- C118: the outputs that the model computes for a point of the box are within the bounds that `forward-ibp` computes for the box, up to an
explicit slack: for every chain of Dense and ReLU layers, every rounding with relative error at most `δ` and every order of the sums, which
need not be the same in the model and in its bounds.  Missing with respect to the full claim: the slack, which cannot be dropped
(`C118_point_refuted`). -/
theorem C118_slack_partial (rd : α → α) (δ : α) (hδ : 0 ≤ δ) (h : RelError rd δ) {κ ν : Type} (net : RChain α κ ν) (ht : net.SameTerms) :
    ∀ (b : (κ → α) × (κ → α)) (s : κ → α), (∀ k, 0 ≤ s k) → ∀ x : κ → α, (∀ k, b.1 k - s k ≤ x k ∧ x k ≤ b.2 k + s k) →
      ∀ o, (net.ibp rd b).1 o - net.slack rd δ b s o ≤ net.eval rd x o ∧ net.eval rd x o ≤ (net.ibp rd b).2 o + net.slack rd δ b s o := by
  induction net with
  | nil => intro b s _ x hx; exact hx
  | dense kernel bias t rest ih =>
    intro b s hs x hx
    refine ih ht.2 _ _ (fun o => ?_) _ fun o => ?_
    · exact slack_nonneg rd hδ (.dense kernel bias t .nil) b s hs o
    · obtain ⟨p1, p2, p3, p4⟩ := ht.1 o
      have d1 : (t o).self.depth ≤ (t o).depth := le_max_left _ _
      have d2 : (t o).uPos.depth ≤ (t o).depth := by unfold DenseSums.depth; omega
      have d3 : (t o).uNeg.depth ≤ (t o).depth := by unfold DenseSums.depth; omega
      have d4 : (t o).lPos.depth ≤ (t o).depth := by unfold DenseSums.depth; omega
      have d5 : (t o).lNeg.depth ≤ (t o).depth := by unfold DenseSums.depth; omega
      exact ⟨dense_lower hδ h (fun k => kernel k o) (bias o) _ _ _ _ (List.Perm.refl _) p3 p4 _ d1 d4 d5 b.1 b.2 x s hx hs,
        dense_upper hδ h (fun k => kernel k o) (bias o) _ _ _ _ (List.Perm.refl _) p1 p2 _ d1 d2 d3 b.1 b.2 x s hx hs⟩
  | relu rest ih =>
    intro b s hs x hx
    refine ih ht _ _ hs _ fun k => ?_
    have h1 := hx k
    have h2 := hs k
    dsimp only
    constructor
    · rcases le_total (b.1 k) 0 with h3 | h3
      · rw [max_eq_right h3]; linarith [le_max_right (x k) 0]
      · rw [max_eq_left h3]; linarith [le_max_left (x k) 0]
    · exact max_le (by linarith [le_max_left (b.2 k) 0]) (by linarith [le_max_right (b.2 k) 0])

/-- C118: so a computed margin larger than the slacks certifies the label that the model computes, at every point of the box. -/
theorem C118_certificate_partial (rd : α → α) (δ : α) (hδ : 0 ≤ δ) (h : RelError rd δ) {κ ν : Type} (net : RChain α κ ν) (ht : net.SameTerms)
    (b : (κ → α) × (κ → α)) (x : κ → α) (hx : ∀ k, b.1 k ≤ x k ∧ x k ≤ b.2 k) (i j : ν)
    (hm : (net.ibp rd b).2 j - (net.ibp rd b).1 i < - (net.slack rd δ b (fun _ => 0) i + net.slack rd δ b (fun _ => 0) j)) :
    net.eval rd x j < net.eval rd x i := by
  have := C118_slack_partial rd δ hδ h net ht b (fun _ => 0) (fun _ => le_rfl) x (fun k => by simpa using hx k)
  linarith [(this i).1, (this j).2]

/-- C118: the corners of the box may be rounded too (Keras casts them to `float32`): the box obtained contains all the points of the given box
that are numbers of the format. -/
theorem C118_cast {κ : Type} (rd : α → α) (hm : Monotone rd) (lo up x : κ → α) (hx : ∀ k, lo k ≤ x k ∧ x k ≤ up k) (hr : ∀ k, rd (x k) = x k) :
    ∀ k, rd (lo k) ≤ x k ∧ x k ≤ rd (up k) :=
  fun k => ⟨by rw [← hr k]; exact hm (hx k).1, by rw [← hr k]; exact hm (hx k).2⟩

/-- Every output of every Dense layer has weights of one sign, and its sums are computed in the same order. -/
def RChain.OneSign : {κ ν : Type} → RChain α κ ν → Prop
  | _, _, .nil => True
  | _, _, .dense kernel _ t rest =>
    (∀ o, ((∀ k, 0 ≤ kernel k o) ∨ ∀ k, kernel k o ≤ 0) ∧ (t o).uPos = (t o).self ∧ (t o).uNeg = (t o).self ∧ (t o).lPos = (t o).self ∧
      (t o).lNeg = (t o).self) ∧ rest.OneSign
  | _, _, .relu rest => rest.OneSign

theorem dot_mono {κ : Type} {rd : α → α} (hm : Monotone rd) (t : SumTree κ) (w x y : κ → α) (h : ∀ k, x k * w k ≤ y k * w k) :
    roundedDot rd t w x ≤ roundedDot rd t w y := by
  unfold roundedDot
  induction t with
  | leaf k => exact hm (h k)
  | node a b iha ihb => exact hm (add_le_add iha ihb)

theorem dot_zero {κ : Type} {rd : α → α} (h0 : rd 0 = 0) (t : SumTree κ) (w x : κ → α) (h : ∀ k, w k = 0) : roundedDot rd t w x = 0 := by
  unfold roundedDot
  induction t with
  | leaf k => simp [SumTree.sum, h k, h0]
  | node a b iha ihb => simp [SumTree.sum, iha, ihb, h0]

theorem dot_idem {κ : Type} {rd : α → α} (hi : ∀ x, rd (rd x) = rd x) (t : SumTree κ) (w x : κ → α) : rd (roundedDot rd t w x) = roundedDot rd t w x := by
  unfold roundedDot
  cases t <;> simp [SumTree.sum, hi]

/-- C118: without slack when nothing cancels: for every monotone rounding, if the weights of each output have one sign and the sums are all
computed in the same order, the computed bounds contain the computed outputs.  Missing: outputs with weights of both signs, for which it is false
(`C118_point_refuted`). -/
theorem C118_one_sign_partial (rd : α → α) (hm : Monotone rd) (h0 : rd 0 = 0) (hi : ∀ x, rd (rd x) = rd x) {κ ν : Type} (net : RChain α κ ν)
    (hs : net.OneSign) : ∀ (b : (κ → α) × (κ → α)) (x : κ → α), (∀ k, b.1 k ≤ x k ∧ x k ≤ b.2 k) →
      ∀ o, (net.ibp rd b).1 o ≤ net.eval rd x o ∧ net.eval rd x o ≤ (net.ibp rd b).2 o := by
  induction net with
  | nil => intro b x hx; exact hx
  | dense kernel bias t rest ih =>
    intro b x hx
    refine ih hs.2 _ _ fun o => ?_
    obtain ⟨hw, e1, e2, e3, e4⟩ := hs.1 o
    simp only [roundedDenseIbp, roundedDense]
    rw [e1, e2, e3, e4]
    rcases hw with hw | hw
    · rw [dot_zero h0 _ (fun k => min 0 (kernel k o)) _ (fun k => min_eq_left (hw k)), dot_zero h0 _ (fun k => min 0 (kernel k o)) _ (fun k => min_eq_left (hw k)),
        add_zero, add_zero, dot_idem hi, dot_idem hi]
      have e : (fun k => max 0 (kernel k o)) = fun k => kernel k o := funext fun k => max_eq_right (hw k)
      rw [e]
      exact ⟨hm (add_le_add_left (dot_mono hm _ _ _ _ fun k => mul_le_mul_of_nonneg_right (hx k).1 (hw k)) _),
        hm (add_le_add_left (dot_mono hm _ _ _ _ fun k => mul_le_mul_of_nonneg_right (hx k).2 (hw k)) _)⟩
    · rw [dot_zero h0 _ (fun k => max 0 (kernel k o)) _ (fun k => max_eq_left (hw k)), dot_zero h0 _ (fun k => max 0 (kernel k o)) _ (fun k => max_eq_left (hw k)),
        zero_add, zero_add, dot_idem hi, dot_idem hi]
      have e : (fun k => min 0 (kernel k o)) = fun k => kernel k o := funext fun k => min_eq_right (hw k)
      rw [e]
      exact ⟨hm (add_le_add_left (dot_mono hm _ _ _ _ fun k => mul_le_mul_of_nonpos_right (hx k).2 (hw k)) _),
        hm (add_le_add_left (dot_mono hm _ _ _ _ fun k => mul_le_mul_of_nonpos_right (hx k).1 (hw k)) _)⟩
  | relu rest ih =>
    intro b x hx
    exact ih hs _ _ fun k => ⟨max_le_max (hx k).1 le_rfl, max_le_max (hx k).2 le_rfl⟩

end

/-! ### Binary floating point -/

theorem ulp_bounds {x : ℚ} (hx : 0 < x) : (2 : ℚ) ^ Int.log 2 x ≤ x ∧ x < (2 : ℚ) ^ (Int.log 2 x + 1) := by
  have h1 := Int.zpow_log_le_self (b := 2) (by norm_num) hx
  have h2 := Int.lt_zpow_succ_log_self (b := 2) (by norm_num) x
  exact ⟨by exact_mod_cast h1, by exact_mod_cast h2⟩

theorem roundPos_error (p : ℕ) {x : ℚ} (hx : 0 < x) : |roundPos p x - x| ≤ (1 / 2) ^ p * x := by
  unfold roundPos
  set u : ℚ := (2 : ℚ) ^ (Int.log 2 x + 1 - p) with hu
  have hu0 : 0 < u := zpow_pos (by norm_num) _
  have h1 := abs_sub_round (x / u)
  have h2 : round (x / u) * u - x = (round (x / u) - x / u) * u := by field_simp
  rw [h2, abs_mul, abs_of_pos hu0, abs_sub_comm]
  have h3 : 1 / 2 * u = (1 / 2) ^ p * (2 : ℚ) ^ Int.log 2 x := by
    rw [hu, show Int.log 2 x + 1 - p = Int.log 2 x + (1 - p : ℤ) by ring, zpow_add₀ two_ne_zero, zpow_sub₀ two_ne_zero, zpow_natCast, one_div, inv_pow,
      zpow_one]
    field_simp
  calc |x / u - round (x / u)| * u ≤ 1 / 2 * u := mul_le_mul_of_nonneg_right h1 hu0.le
    _ = (1 / 2) ^ p * (2 : ℚ) ^ Int.log 2 x := h3
    _ ≤ (1 / 2) ^ p * x := mul_le_mul_of_nonneg_left (ulp_bounds hx).1 (by positivity)

/-- C118: rounding to nearest with `p` binary digits is a rounding of the theorems above, with the error `2 ^ -p`. -/
theorem C118_float_error (p : ℕ) : RelError (roundNearest p) ((1 / 2) ^ p) := by
  intro x
  unfold roundNearest
  split_ifs with h1 h2
  · rw [abs_of_pos h1]; exact roundPos_error p h1
  · have := roundPos_error p (neg_pos.mpr h2)
    rw [abs_of_neg h2, show -roundPos p (-x) - x = -(roundPos p (-x) - -x) by ring, abs_neg]
    exact this
  · rw [show x = 0 by linarith [not_lt.mp h1, not_lt.mp h2]]; simp

theorem round_mono' {x y : ℚ} (h : x ≤ y) : round x ≤ round y := by
  rw [round_eq, round_eq]; exact Int.floor_mono (by linarith)

theorem log_eq {x : ℚ} {e : ℤ} (h1 : (2 : ℚ) ^ e ≤ x) (h2 : x < (2 : ℚ) ^ (e + 1)) : Int.log 2 x = e := by
  have hx : 0 < x := lt_of_lt_of_le (zpow_pos (by norm_num) _) h1
  have a := (Int.zpow_le_iff_le_log (b := 2) (by norm_num) (x := e) hx).mp (by exact_mod_cast h1)
  have b := (Int.lt_zpow_iff_log_lt (b := 2) (by norm_num) (x := e + 1) hx).mp (by exact_mod_cast h2)
  omega

/-- A number of the format is kept. -/
theorem roundPos_fix (q : ℕ) (n : ℤ) (k : ℤ) (h1 : 2 ^ q ≤ n) (h2 : n < 2 ^ (q + 1)) : roundPos (q + 1) (n * (2 : ℚ) ^ k) = n * (2 : ℚ) ^ k := by
  have hk : (0 : ℚ) < (2 : ℚ) ^ k := zpow_pos (by norm_num) _
  have e : Int.log 2 ((n : ℚ) * (2 : ℚ) ^ k) = k + q := by
    apply log_eq
    · rw [zpow_add₀ two_ne_zero, zpow_natCast, mul_comm]
      exact mul_le_mul_of_nonneg_right (by exact_mod_cast h1) hk.le
    · rw [show k + (q : ℤ) + 1 = k + ((q + 1 : ℕ) : ℤ) by push_cast; ring, zpow_add₀ two_ne_zero, zpow_natCast, mul_comm ((2 : ℚ) ^ k)]
      exact mul_lt_mul_of_pos_right (by exact_mod_cast h2) hk
  unfold roundPos
  rw [e, show k + (q : ℤ) + 1 - ((q + 1 : ℕ) : ℤ) = k by push_cast; ring, mul_div_assoc, div_self hk.ne', mul_one, round_intCast]

/-- The result of a rounding: `n` units, with at most one digit too many. -/
theorem roundPos_form (q : ℕ) {x : ℚ} (hx : 0 < x) :
    ∃ n : ℤ, roundPos (q + 1) x = n * (2 : ℚ) ^ (Int.log 2 x - q) ∧ 2 ^ q ≤ n ∧ n ≤ 2 ^ (q + 1) := by
  obtain ⟨h1, h2⟩ := ulp_bounds hx
  have hu : (0 : ℚ) < (2 : ℚ) ^ (Int.log 2 x - q) := zpow_pos (by norm_num) _
  have e : Int.log 2 x + 1 - ((q + 1 : ℕ) : ℤ) = Int.log 2 x - q := by push_cast; ring
  refine ⟨round (x / (2 : ℚ) ^ (Int.log 2 x - q)), by unfold roundPos; rw [e], ?_, ?_⟩
  · have : ((2 ^ q : ℤ) : ℚ) ≤ x / (2 : ℚ) ^ (Int.log 2 x - q) := by
      rw [le_div_iff₀ hu]
      push_cast
      rw [← zpow_natCast, ← zpow_add₀ two_ne_zero, show (q : ℤ) + (Int.log 2 x - q) = Int.log 2 x by ring]
      exact h1
    have := round_mono' this
    rwa [round_intCast] at this
  · have : x / (2 : ℚ) ^ (Int.log 2 x - q) ≤ ((2 ^ (q + 1) : ℤ) : ℚ) := by
      rw [div_le_iff₀ hu]
      push_cast
      rw [← zpow_natCast, ← zpow_add₀ two_ne_zero, show ((q + 1 : ℕ) : ℤ) + (Int.log 2 x - q) = Int.log 2 x + 1 by push_cast; ring]
      exact h2.le
    have := round_mono' this
    rwa [round_intCast] at this

theorem roundPos_range (q : ℕ) {x : ℚ} (hx : 0 < x) :
    (2 : ℚ) ^ Int.log 2 x ≤ roundPos (q + 1) x ∧ roundPos (q + 1) x ≤ (2 : ℚ) ^ (Int.log 2 x + 1) := by
  obtain ⟨n, e, h1, h2⟩ := roundPos_form q hx
  have hu : (0 : ℚ) < (2 : ℚ) ^ (Int.log 2 x - q) := zpow_pos (by norm_num) _
  have h1' : ((2 : ℚ) ^ q) ≤ n := by exact_mod_cast h1
  have h2' : (n : ℚ) ≤ (2 : ℚ) ^ (q + 1) := by exact_mod_cast h2
  rw [e]
  constructor
  · calc (2 : ℚ) ^ Int.log 2 x = (2 : ℚ) ^ q * (2 : ℚ) ^ (Int.log 2 x - q) := by
          rw [← zpow_natCast, ← zpow_add₀ two_ne_zero]; congr 1; ring
      _ ≤ _ := mul_le_mul_of_nonneg_right h1' hu.le
  · calc _ ≤ (2 : ℚ) ^ (q + 1) * (2 : ℚ) ^ (Int.log 2 x - q) := mul_le_mul_of_nonneg_right h2' hu.le
      _ = (2 : ℚ) ^ (Int.log 2 x + 1) := by
          rw [← zpow_natCast, ← zpow_add₀ two_ne_zero]; congr 1; push_cast; ring

theorem roundPos_pos (q : ℕ) {x : ℚ} (hx : 0 < x) : 0 < roundPos (q + 1) x :=
  lt_of_lt_of_le (zpow_pos (by norm_num) _) (roundPos_range q hx).1

theorem roundPos_mono (q : ℕ) {x y : ℚ} (hx : 0 < x) (h : x ≤ y) : roundPos (q + 1) x ≤ roundPos (q + 1) y := by
  rcases (Int.log_mono_right (b := 2) hx h).eq_or_lt with e | e
  · unfold roundPos
    rw [e]
    have hu : (0 : ℚ) < (2 : ℚ) ^ (Int.log 2 y + 1 - ((q + 1 : ℕ) : ℤ)) := zpow_pos (by norm_num) _
    refine mul_le_mul_of_nonneg_right ?_ hu.le
    exact_mod_cast round_mono' (div_le_div_of_nonneg_right h hu.le)
  · calc roundPos (q + 1) x ≤ (2 : ℚ) ^ (Int.log 2 x + 1) := (roundPos_range q hx).2
      _ ≤ (2 : ℚ) ^ Int.log 2 y := zpow_le_zpow_right₀ (by norm_num) (by omega)
      _ ≤ _ := (roundPos_range q (hx.trans_le h)).1

theorem roundPos_idem (q : ℕ) {x : ℚ} (hx : 0 < x) : roundPos (q + 1) (roundPos (q + 1) x) = roundPos (q + 1) x := by
  obtain ⟨n, e, h1, h2⟩ := roundPos_form q hx
  rw [e]
  rcases h2.lt_or_eq with h2 | rfl
  · exact roundPos_fix q n _ h1 h2
  · have hpos : (0 : ℤ) < 2 ^ q := by positivity
    have := roundPos_fix q (2 ^ q) (Int.log 2 x - q + 1) le_rfl (by rw [pow_succ]; omega)
    rw [show ((2 ^ q : ℤ) : ℚ) * (2 : ℚ) ^ (Int.log 2 x - q + 1) = ((2 ^ (q + 1) : ℤ) : ℚ) * (2 : ℚ) ^ (Int.log 2 x - q) by
      rw [zpow_add_one₀ two_ne_zero]; push_cast; ring] at this
    exact this

/-- C118: rounding to nearest is monotone, keeps zero and keeps the numbers of the format, as `C118_one_sign_partial` and `C118_cast` ask. -/
theorem C118_float_monotone (p : ℕ) (hp : 0 < p) :
    Monotone (roundNearest p) ∧ roundNearest p 0 = 0 ∧ ∀ x, roundNearest p (roundNearest p x) = roundNearest p x := by
  obtain ⟨q, rfl⟩ : ∃ q, p = q + 1 := ⟨p - 1, by omega⟩
  refine ⟨fun x y h => ?_, by simp [roundNearest], fun x => ?_⟩
  · unfold roundNearest
    split_ifs with h1 h2 h3 h4 h5 h6 h7
    · exact roundPos_mono q h1 h
    · linarith
    · linarith
    · linarith [roundPos_pos q (neg_pos.mpr h4), roundPos_pos q h5]
    · exact neg_le_neg (roundPos_mono q (neg_pos.mpr h6) (by linarith))
    · linarith [roundPos_pos q (neg_pos.mpr h4)]
    · exact (roundPos_pos q h7).le
    · linarith
    · exact le_rfl
  · rcases lt_trichotomy x 0 with h | h | h
    · have hp := roundPos_pos q (neg_pos.mpr h)
      have e : roundNearest (q + 1) x = - roundPos (q + 1) (-x) := by rw [roundNearest, if_neg (by linarith), if_pos h]
      rw [e, roundNearest, if_neg (by linarith), if_pos (by linarith), neg_neg, roundPos_idem q (neg_pos.mpr h)]
    · simp [roundNearest, h]
    · have hp := roundPos_pos q h
      have e : roundNearest (q + 1) x = roundPos (q + 1) x := by rw [roundNearest, if_pos h]
      rw [e, roundNearest, if_pos hp, roundPos_idem q h]

/-! ### The slack cannot be dropped -/

/-- Powers of two are kept by `float32`. -/
theorem float_pow (k : ℤ) : roundNearest 24 ((2 : ℚ) ^ k) = (2 : ℚ) ^ k := by
  have h := roundPos_fix 23 (2 ^ 23) (k - 23) (by norm_num) (by norm_num)
  have e : ((2 ^ 23 : ℤ) : ℚ) * (2 : ℚ) ^ (k - 23) = (2 : ℚ) ^ k := by
    rw [zpow_sub₀ two_ne_zero]; push_cast; norm_num; field_simp
  rw [e] at h
  rw [roundNearest, if_pos (zpow_pos (by norm_num) _), h]

theorem float_neg (x : ℚ) : roundNearest 24 (-x) = - roundNearest 24 x := by
  rcases lt_trichotomy x 0 with h | h | h
  · rw [roundNearest, if_pos (by linarith), roundNearest, if_neg (by linarith), if_pos h, neg_neg]
  · simp [roundNearest, h]
  · rw [roundNearest, if_neg (by linarith), if_pos (by linarith), neg_neg, roundNearest, if_pos h]

/-- `2 ^ 25 + 1` has no `float32`. -/
theorem float_absorb : roundNearest 24 33554433 = 33554432 := by
  have e : Int.log 2 (33554433 : ℚ) = 25 := log_eq (by norm_num) (by norm_num)
  rw [roundNearest, if_pos (by norm_num), roundPos, e]
  have : round ((33554433 : ℚ) / 2 ^ ((25 : ℤ) + 1 - ((24 : ℕ) : ℤ))) = 8388608 := by
    rw [round_eq_iff]; norm_num
  rw [this]; norm_num

/-- The terms added from left to right. -/
def leftToRight : SumTree (Fin 3) := .node (.node (.leaf 0) (.leaf 1)) (.leaf 2)

/-- A Dense layer with one unit and weights `2 ^ 25, -2 ^ 25, 1`, all sums from left to right. -/
def cancelNet : RChain ℚ (Fin 3) (Fin 1) :=
  .dense (fun k _ => ![33554432, -33554432, 1] k) (fun _ => 0) (fun _ => ⟨leftToRight, leftToRight, leftToRight, leftToRight, leftToRight⟩) .nil

/-- C118 is false without slack, in `float32`, for one Dense layer, on the box reduced to the point `(1, 1, 1)`, with all sums computed in the
same order: the model returns 1 and both bounds are 0 (`u_c` adds up `2 ^ 25` and 1, which gives `2 ^ 25`). -/
theorem C118_point_refuted :
    cancelNet.eval (roundNearest 24) (fun _ => 1) 0 = 1 ∧ (cancelNet.ibp (roundNearest 24) (fun _ => 1, fun _ => 1)).1 0 = 0 ∧
      (cancelNet.ibp (roundNearest 24) (fun _ => 1, fun _ => 1)).2 0 = 0 := by
  have hM : roundNearest 24 33554432 = 33554432 := by have := float_pow 25; norm_num at this; exact this
  have h1 : roundNearest 24 1 = 1 := by simpa using float_pow 0
  have h0 : roundNearest 24 0 = 0 := by simp [roundNearest]
  have hN : roundNearest 24 (-33554432) = -33554432 := by rw [float_neg, hM]
  have ha := float_absorb
  refine ⟨?_, ?_, ?_⟩ <;>
    simp [cancelNet, RChain.eval, RChain.ibp, roundedDense, roundedDenseIbp, roundedDot, leftToRight, SumTree.sum, hM, h1, h0, hN] <;>
    norm_num [hM, h1, h0, hN, ha]

/-- It meets the hypotheses of `C118_slack_partial`. -/
example : cancelNet.SameTerms := ⟨fun _ => ⟨.refl _, .refl _, .refl _, .refl _⟩, trivial⟩

/-- A case of `C118_one_sign_partial` with a rounding that does something: two inputs, weights `1/3, 1/3` then `-1/3`, fixed point. -/
def thirdsNet : RChain ℚ (Fin 2) (Fin 1) :=
  .dense (fun _ _ => 1 / 3) (fun _ => 1 / 10) (fun _ => let t := .node (.leaf 0) (.leaf 1); ⟨t, t, t, t, t⟩)
    (.relu (.dense (fun _ _ => - 1 / 3) (fun _ => 0) (fun _ => let t := .leaf 0; ⟨t, t, t, t, t⟩) .nil))

example : thirdsNet.OneSign :=
  ⟨fun _ => ⟨.inl fun _ => by norm_num, rfl, rfl, rfl, rfl⟩, fun _ => ⟨.inr fun _ => by norm_num, rfl, rfl, rfl, rfl⟩, trivial⟩

/-- One input, two outputs: the input and its opposite. -/
def signNet : RChain ℚ (Fin 1) (Fin 2) :=
  .dense (fun _ o => ![1, -1] o) (fun _ => 0) (fun _ => let t := .leaf 0; ⟨t, t, t, t, t⟩) .nil

/-- A case of `C118_certificate_partial` in `float32`: on `[2, 4]` the first output is the larger one. -/
example (x : Fin 1 → ℚ) (hx : ∀ k, 2 ≤ x k ∧ x k ≤ 4) :
    signNet.eval (roundNearest 24) x 1 < signNet.eval (roundNearest 24) x 0 := by
  have h4 : roundNearest 24 4 = 4 := by have := float_pow 2; norm_num at this; exact this
  have h2 : roundNearest 24 2 = 2 := by have := float_pow 1; norm_num at this; exact this
  have h0 : roundNearest 24 0 = 0 := by simp [roundNearest]
  have h2' : roundNearest 24 (-2) = -2 := by rw [float_neg, h2]
  refine C118_certificate_partial (roundNearest 24) _ (by positivity) (C118_float_error 24) signNet
    ⟨fun _ => ⟨.refl _, .refl _, .refl _, .refl _⟩, trivial⟩ (fun _ => 2, fun _ => 4) x hx 0 1 ?_
  simp [signNet, RChain.ibp, RChain.slack, roundedDenseIbp, roundedDot, SumTree.sum, SumTree.leaves, SumTree.depth, DenseSums.depth, h4, h2, h0, h2']
  norm_num

end Decomon
