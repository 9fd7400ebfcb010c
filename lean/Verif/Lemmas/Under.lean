import Verif.SpecUnder
import Verif.Props.Runs

/-! Lemmas for C155: sums and layers in floating-point arithmetic with underflow and overflow. -/

namespace Decomon

section
variable {ι κ κ' α : Type} [Field α] [LinearOrder α] [IsStrictOrderedRing α] {rd : α → α} {δ η Ω : α}

theorem one_le_grow (hδ : 0 ≤ δ) (n : ℕ) : 1 ≤ (1 + δ) ^ n := one_le_pow₀ (by linarith)

theorem grow_mono (hδ : 0 ≤ δ) {m n : ℕ} (h : m ≤ n) {S T : α} (hS : 0 ≤ S) (hST : S ≤ T) : (1 + δ) ^ m * S ≤ (1 + δ) ^ n * T :=
  (mul_le_mul_of_nonneg_right (pow_le_pow_right₀ (by linarith) h) hS).trans (mul_le_mul_of_nonneg_left hST (by linarith [one_le_grow hδ n]))

/-- One operation on a number with an error. -/
theorem float_step (hδ : 0 ≤ δ) (h : FloatError rd δ η Ω) {a A S : α} (n : ℕ) (ha : |a - A| ≤ ((1 + δ) ^ n - 1) * S) (hA : |A| + η ≤ S) (hη : 0 ≤ η)
    (hΩ : (1 + δ) ^ n * S ≤ Ω) : |rd a - A| ≤ ((1 + δ) ^ (n + 1) - 1) * S ∧ |a| ≤ (1 + δ) ^ n * S := by
  have e1 : |a| + η ≤ (1 + δ) ^ n * S := by
    have := abs_add_le (a - A) A
    rw [sub_add_cancel] at this
    linarith
  have e2 := h a (by linarith)
  have e3 : |rd a - A| ≤ |rd a - a| + |a - A| := abs_sub_le _ _ _
  have e4 := mul_le_mul_of_nonneg_left e1 hδ
  refine ⟨?_, by linarith⟩
  have : ((1 + δ) ^ (n + 1) - 1) * S = δ * ((1 + δ) ^ n * S) + ((1 + δ) ^ n - 1) * S := by ring
  linarith

theorem add_near (n : ℕ) {a b A B SA SB : α} (ha : |a - A| ≤ ((1 + δ) ^ n - 1) * SA) (hb : |b - B| ≤ ((1 + δ) ^ n - 1) * SB) :
    |a + b - (A + B)| ≤ ((1 + δ) ^ n - 1) * (SA + SB) := by
  rw [add_sub_add_comm, mul_add]
  exact (abs_add_le _ _).trans (add_le_add ha hb)

theorem tree_float (hδ : 0 ≤ δ) (hη : 0 ≤ η) (h : FloatError rd δ η Ω) (p : κ → α) (t : SumTree κ)
    (hΩ : (1 + δ) ^ t.depth * (t.leaves.map fun k => |p k| + η).sum ≤ Ω) :
    |t.sum rd p - (t.leaves.map p).sum| ≤ ((1 + δ) ^ (t.depth + 1) - 1) * (t.leaves.map fun k => |p k| + η).sum ∧
      |(t.leaves.map p).sum| + η ≤ (t.leaves.map fun k => |p k| + η).sum := by
  induction t with
  | leaf k =>
    simp only [SumTree.sum, SumTree.leaves, SumTree.depth, List.map_cons, List.map_nil, List.sum_cons, List.sum_nil, add_zero, pow_zero, one_mul] at hΩ ⊢
    exact ⟨(float_step hδ h 0 (by simp) le_rfl hη (by simpa using hΩ)).1, le_rfl⟩
  | node a b iha ihb =>
    simp only [SumTree.sum, SumTree.leaves, SumTree.depth, List.map_append, List.sum_append] at hΩ ⊢
    have pos : ∀ l : List κ, 0 ≤ (l.map fun k => |p k| + η).sum := fun l =>
      List.sum_nonneg (by simp only [List.mem_map]; rintro _ ⟨k, -, rfl⟩; exact add_nonneg (abs_nonneg _) hη)
    have hA := iha ((grow_mono hδ (by omega) (pos _) (by linarith [pos b.leaves])).trans hΩ)
    have hB := ihb ((grow_mono hδ (by omega) (pos _) (by linarith [pos a.leaves])).trans hΩ)
    have e := add_near (δ := δ) (max a.depth b.depth + 1) (hA.1.trans (gamma_mono hδ (by omega) (pos _))) (hB.1.trans (gamma_mono hδ (by omega) (pos _)))
    have s : |(a.leaves.map p).sum + (b.leaves.map p).sum| + η ≤ (a.leaves.map fun k => |p k| + η).sum + (b.leaves.map fun k => |p k| + η).sum := by
      have := abs_add_le (a.leaves.map p).sum (b.leaves.map p).sum
      linarith [hA.2, hB.2]
    exact ⟨(float_step hδ h _ e s hη hΩ).1, s⟩

/-- A sum of numbers, in any order: one `η` for each term and one more. -/
theorem isSum_float {τ : Type} [Fintype τ] (hδ : 0 ≤ δ) (hη : 0 ≤ η) (h : FloatError rd δ η Ω) (p : τ → α) (v : α) (hv : IsSum rd p v)
    (hΩ : (1 + δ) ^ Fintype.card τ * ((∑ t, |p t|) + (Fintype.card τ + 1) * η) ≤ Ω) :
    |v - ∑ t, p t| ≤ ((1 + δ) ^ Fintype.card τ - 1) * ((∑ t, |p t|) + (Fintype.card τ + 1) * η) ∧
      |∑ t, p t| + η ≤ (∑ t, |p t|) + (Fintype.card τ + 1) * η := by
  have c0 : (0 : α) ≤ Fintype.card τ := Nat.cast_nonneg _
  have a0 : 0 ≤ ∑ t, |p t| := Finset.sum_nonneg fun _ _ => abs_nonneg _
  have cη := mul_nonneg c0 hη
  have s1 : |∑ t, p t| + η ≤ (∑ t, |p t|) + (Fintype.card τ + 1) * η := by
    linarith [Finset.abs_sum_le_sum_abs p Finset.univ]
  refine ⟨?_, s1⟩
  rcases hv with ⟨_, rfl⟩ | ⟨t, ht, rfl⟩
  · simp
  · have hc : t.leaves.length = Fintype.card τ := by
      have := congrArg Multiset.card ht
      simpa using this
    have d := t.depth_lt
    have e : (t.leaves.map fun k => |p k| + η).sum = (∑ t, |p t|) + Fintype.card τ * η := by
      rw [leaves_sum t ht, Finset.sum_add_distrib, Finset.sum_const, Finset.card_univ, nsmul_eq_mul]
    have T : (∑ t, |p t|) + Fintype.card τ * η ≤ (∑ t, |p t|) + (Fintype.card τ + 1) * η := by linarith
    have S0 : 0 ≤ (∑ t, |p t|) + Fintype.card τ * η := by linarith
    have := (tree_float hδ hη h p t (by rw [e]; exact (grow_mono hδ (by omega) S0 T).trans hΩ)).1
    rw [e, leaves_sum t ht] at this
    exact size_one hδ (by omega) this S0 T

/-- A sum of products and a bias. -/
theorem dense_float {τ : Type} [Fintype τ] (hδ : 0 ≤ δ) (hη : 0 ≤ η) (h : FloatError rd δ η Ω) (x w A : τ → α) (hx : ∀ t, |x t| ≤ A t) (c d : α)
    (hd : IsSum rd (fun t => x t * w t) d) (hΩ : (1 + δ) ^ (Fintype.card τ + 2) * ((∑ t, |w t| * A t) + |c| + 2 * (Fintype.card τ + 1) * η) ≤ Ω) :
    |rd (d + c) - ((∑ t, x t * w t) + c)| ≤ ((1 + δ) ^ (Fintype.card τ + 2) - 1) * ((∑ t, |w t| * A t) + |c| + 2 * (Fintype.card τ + 1) * η) := by
  have c0 : (0 : α) ≤ Fintype.card τ := Nat.cast_nonneg _
  have cη := mul_nonneg c0 hη
  have e4 : (∑ t, |x t * w t|) ≤ ∑ t, |w t| * A t := by
    gcongr with t
    rw [abs_mul, mul_comm]
    exact mul_le_mul_of_nonneg_left (hx t) (abs_nonneg _)
  have a0 : 0 ≤ ∑ t, |x t * w t| := Finset.sum_nonneg fun _ _ => abs_nonneg _
  have c1 := abs_nonneg c
  obtain ⟨e1, e2⟩ := isSum_float hδ hη h _ d hd ((grow_mono hδ (by omega) (by linarith) (by linarith)).trans hΩ)
  have e3 := add_near (δ := δ) _ e1 (const_error hδ _ c)
  have s : |(∑ t, x t * w t) + c| + η ≤ (∑ t, |x t * w t|) + (Fintype.card τ + 1) * η + |c| := by
    have := abs_add_le (∑ t, x t * w t) c
    linarith
  have e5 := (float_step hδ h _ e3 s hη ((grow_mono hδ (by omega) (by linarith) (by linarith)).trans hΩ)).1
  exact size_one hδ (by omega) e5 (by linarith) (by linarith)

/-- Two sums of products and a bias. -/
theorem split_float {τ : Type} [Fintype τ] (hδ : 0 ≤ δ) (hη : 0 ≤ η) (h : FloatError rd δ η Ω) (x y w A : τ → α) (hx : ∀ t, |x t| ≤ A t)
    (hy : ∀ t, |y t| ≤ A t) (c a b : α) (ha : IsSum rd (fun t => x t * max 0 (w t)) a) (hb : IsSum rd (fun t => y t * min 0 (w t)) b)
    (hΩ : (1 + δ) ^ (Fintype.card τ + 2) * ((∑ t, |w t| * A t) + |c| + 2 * (Fintype.card τ + 1) * η) ≤ Ω) :
    |rd (rd (a + b) + c) - ((∑ t, x t * max 0 (w t)) + (∑ t, y t * min 0 (w t)) + c)| ≤
      ((1 + δ) ^ (Fintype.card τ + 2) - 1) * ((∑ t, |w t| * A t) + |c| + 2 * (Fintype.card τ + 1) * η) := by
  have c0 : (0 : α) ≤ Fintype.card τ := Nat.cast_nonneg _
  have cη := mul_nonneg c0 hη
  have c1 := abs_nonneg c
  have a0 : 0 ≤ ∑ t, |x t * max 0 (w t)| := Finset.sum_nonneg fun _ _ => abs_nonneg _
  have b0 : 0 ≤ ∑ t, |y t * min 0 (w t)| := Finset.sum_nonneg fun _ _ => abs_nonneg _
  have e4 : (∑ t, |x t * max 0 (w t)|) + (∑ t, |y t * min 0 (w t)|) ≤ ∑ t, |w t| * A t := by
    rw [← Finset.sum_add_distrib]
    gcongr with t
    rcases le_total 0 (w t) with hw | hw
    · rw [max_eq_right hw, min_eq_left hw, mul_zero, abs_zero, add_zero, abs_mul, mul_comm]
      exact mul_le_mul_of_nonneg_left (hx t) (abs_nonneg _)
    · rw [max_eq_left hw, min_eq_right hw, mul_zero, abs_zero, zero_add, abs_mul, mul_comm]
      exact mul_le_mul_of_nonneg_left (hy t) (abs_nonneg _)
  obtain ⟨a1, a2⟩ := isSum_float hδ hη h _ a ha ((grow_mono hδ (by omega) (by linarith) (by linarith)).trans hΩ)
  obtain ⟨b1, b2⟩ := isSum_float hδ hη h _ b hb ((grow_mono hδ (by omega) (by linarith) (by linarith)).trans hΩ)
  have s1 : |(∑ t, x t * max 0 (w t)) + ∑ t, y t * min 0 (w t)| + η ≤
      (∑ t, |x t * max 0 (w t)|) + (Fintype.card τ + 1) * η + ((∑ t, |y t * min 0 (w t)|) + (Fintype.card τ + 1) * η) := by
    have := abs_add_le (∑ t, x t * max 0 (w t)) (∑ t, y t * min 0 (w t))
    linarith
  have e1 := (float_step hδ h _ (add_near (δ := δ) _ a1 b1) s1 hη ((grow_mono hδ (by omega) (by linarith) (by linarith)).trans hΩ)).1
  have s2 : |(∑ t, x t * max 0 (w t)) + (∑ t, y t * min 0 (w t)) + c| + η ≤
      (∑ t, |x t * max 0 (w t)|) + (Fintype.card τ + 1) * η + ((∑ t, |y t * min 0 (w t)|) + (Fintype.card τ + 1) * η) + |c| := by
    have := abs_add_le ((∑ t, x t * max 0 (w t)) + ∑ t, y t * min 0 (w t)) c
    linarith
  have e2 := (float_step hδ h _ (add_near (δ := δ) _ e1 (const_error hδ _ c)) s2 hη ((grow_mono hδ (by omega) (by linarith) (by linarith)).trans hΩ)).1
  exact size_one hδ (by omega) e2 (by linarith) (by linarith)

theorem Lay.Fits.mono [Fintype κ] (hδ : 0 ≤ δ) (hη : 0 ≤ η) {A B : κ → α} (hA : ∀ k, 0 ≤ A k ∧ A k ≤ B k) {l : Lay α κ κ'} (h : l.Fits δ η Ω B) :
    l.Fits δ η Ω A := by
  cases l with
  | dense kernel bias =>
    intro o
    refine le_trans (mul_le_mul_of_nonneg_left ?_ (by linarith [one_le_grow hδ (Fintype.card κ + 2)])) (h o)
    gcongr with t
    exact (hA t).2
  | @linear _ T _ _ L kernel bias =>
    intro o
    refine le_trans (mul_le_mul_of_nonneg_left ?_ (by linarith [one_le_grow hδ (Fintype.card T + 2)])) (h o)
    gcongr with t
    exact elim_le _ _ _ hA
  | _ => trivial

theorem Lay.float_call [Fintype κ] (hδ : 0 ≤ δ) (hη : 0 ≤ η) (h : FloatError rd δ η Ω) (bn : α → α → α → α → α → α) (l : Lay α κ κ')
    (w : κ → α) (hf : l.Fits δ η Ω fun t => |w t|) (v : κ' → α) (hv : l.RoundedCall rd bn w v) (k : κ') :
    |v k - l.eval w k| ≤ (floatError δ η bn).lay l (fun t => |w t|) k := by
  cases l with
  | dense kernel bias =>
    obtain ⟨d, hd, e⟩ := hv k
    rw [e]
    have := dense_float hδ hη h w (fun t => kernel t k) (fun t => |w t|) (fun _ => le_rfl) (bias k) d hd (hf k)
    simpa only [Lay.eval, floatError, mul_comm (w _)] using this
  | linear L kernel bias =>
    obtain ⟨d, hd, e⟩ := hv k
    rw [e]
    have := dense_float hδ hη h (fun t => (L.src k t).elim 0 w) (fun t => kernel (L.kidx k t)) (fun t => (L.src k t).elim 0 fun t => |w t|)
      (fun t => by cases L.src k t <;> simp) (bias k) d hd (hf k)
    have ee : (Lay.linear L kernel bias).eval w k = (∑ t, (L.src k t).elim 0 w * kernel (L.kidx k t)) + bias k := by
      simp only [Lay.eval]
      congr 1
      exact Finset.sum_congr rfl fun t _ => by rw [mul_comm]; cases L.src k t <;> rfl
    rw [ee]
    exact this
  | relu gf gb => simp [hv k, Lay.eval, floatError, relu]
  | batchNorm gamma beta mean sd => exact hv k
  | reshape e => simp [hv k, Lay.eval, floatError]
  | skip => simp [hv k, Lay.eval, floatError]

theorem Lay.float_ibp [Fintype κ] (hδ : 0 ≤ δ) (hη : 0 ≤ η) (h : FloatError rd δ η Ω) (bn : α → α → α → α → α → α) (eps : α) (sl : Slope)
    (lay : Lay α κ κ') (u0 l0 : κ → α) (hf : lay.Fits δ η Ω fun t => max |u0 t| |l0 t|) (u l : κ' → α) (hv : lay.RoundedIbp rd bn u0 l0 u l) (k : κ') :
    |u k - (lay.forward (emptyDomain α) .ibp eps sl (ibpOnly u0 l0)).uc k| ≤ (floatError δ η bn).lay lay (fun t => max |u0 t| |l0 t|) k ∧
      |l k - (lay.forward (emptyDomain α) .ibp eps sl (ibpOnly u0 l0)).lc k| ≤ (floatError δ η bn).lay lay (fun t => max |u0 t| |l0 t|) k := by
  have hib : getIbp .ibp = true := rfl
  have hu : ∀ t, |u0 t| ≤ max |u0 t| |l0 t| := fun t => le_max_left _ _
  have hl : ∀ t, |l0 t| ≤ max |u0 t| |l0 t| := fun t => le_max_right _ _
  cases lay with
  | dense kernel bias =>
    obtain ⟨⟨a, b, ha, hb, e⟩, a', b', ha', hb', e'⟩ := hv k
    rw [e, e']
    have e1 := split_float hδ hη h u0 l0 (fun t => kernel t k) _ hu hl (bias k) a b ha hb (hf k)
    have e2 := split_float hδ hη h l0 u0 (fun t => kernel t k) _ hl hu (bias k) a' b' ha' hb' (hf k)
    simp only [mul_comm (u0 _), mul_comm (l0 _)] at e1 e2
    exact ⟨e1, e2⟩
  | linear L kernel bias =>
    obtain ⟨⟨a, b, ha, hb, e⟩, a', b', ha', hb', e'⟩ := hv k
    rw [e, e']
    have hu' : ∀ t, |(L.src k t).elim 0 u0| ≤ (L.src k t).elim 0 fun t => max |u0 t| |l0 t| := fun t => by cases L.src k t <;> simp
    have hl' : ∀ t, |(L.src k t).elim 0 l0| ≤ (L.src k t).elim 0 fun t => max |u0 t| |l0 t| := fun t => by cases L.src k t <;> simp
    have e1 := split_float hδ hη h _ _ (fun t => kernel (L.kidx k t)) _ hu' hl' (bias k) a b ha hb (hf k)
    have e2 := split_float hδ hη h _ _ (fun t => kernel (L.kidx k t)) _ hl' hu' (bias k) a' b' ha' hb' (hf k)
    simp only [mul_comm (Option.elim _ _ u0), mul_comm (Option.elim _ _ l0)] at e1 e2
    exact ⟨e1, e2⟩
  | relu gf gb =>
    have := hv k
    simp [this.1, this.2, Lay.forward, reluT, hib, tighten_ibp_eq, ibpOnly, Decomon.relu, floatError]
  | batchNorm gamma beta mean sd => exact hv k
  | reshape e =>
    have := hv k
    simp [this.1, this.2, Lay.forward, reindexT, ibpOnly, floatError, hib, tighten_ibp_eq]
  | skip =>
    have := hv k
    simp [this.1, this.2, Lay.forward, ibpOnly, floatError]

/-! ### Merge layers -/

theorem sum_float (hδ : 0 ≤ δ) (hη : 0 ≤ η) (h : FloatError rd δ η Ω) {x y a b : α} (hx : |x| ≤ a) (hy : |y| ≤ b) (hΩ : a + b + η ≤ Ω) :
    |rd (x + y) - (x + y)| ≤ ((1 + δ) ^ 1 - 1) * (a + b + η) := by
  have := abs_add_le x y
  exact (float_step hδ h 0 (S := a + b + η) (by simp) (by linarith) hη (by simpa using hΩ)).1

theorem prod_float (hδ : 0 ≤ δ) (hη : 0 ≤ η) (h : FloatError rd δ η Ω) {x y a b : α} (hx : |x| ≤ a) (hy : |y| ≤ b) (hΩ : a * b + η ≤ Ω) :
    |rd (x * y) - x * y| ≤ ((1 + δ) ^ 1 - 1) * (a * b + η) ∧ |x * y| ≤ a * b := by
  have e : |x * y| ≤ a * b := by
    rw [abs_mul]
    have := (abs_nonneg _).trans hx
    gcongr
  exact ⟨(float_step hδ h 0 (S := a * b + η) (by simp) (by linarith) hη (by simpa using hΩ)).1, e⟩

theorem half_float (hδ : 0 ≤ δ) (hη : 0 ≤ η) (h : FloatError rd δ η Ω) {x y a b : α} (hx : |x| ≤ a) (hy : |y| ≤ b)
    (hΩ : (1 + δ) ^ 3 * (2 * ((a + b) / 2) + 3 * η) ≤ Ω) : |rd (rd (x + y) / 2) - (x + y) / 2| ≤ ((1 + δ) ^ 3 - 1) * ((a + b) / 2 + 3 * η) := by
  have ha := (abs_nonneg _).trans hx
  have hb := (abs_nonneg _).trans hy
  have hs : 0 ≤ a + b := by linarith
  have g := one_le_grow hδ 3
  have e1 := sum_float hδ hη h hx hy (by
    have := grow_mono hδ (Nat.zero_le 3) (show 0 ≤ a + b + η by linarith) (show a + b + η ≤ 2 * ((a + b) / 2) + 3 * η by linarith)
    rw [pow_zero, one_mul] at this
    exact this.trans hΩ)
  have e3 : |rd (x + y) / 2 - (x + y) / 2| ≤ ((1 + δ) ^ 1 - 1) * ((a + b) / 2 + η) := by
    rw [← sub_div, abs_div, abs_two, div_le_iff₀ two_pos]
    refine e1.trans ?_
    rw [pow_one, add_sub_cancel_left]
    nlinarith [mul_nonneg hδ hη]
  have s : |(x + y) / 2| + η ≤ (a + b) / 2 + η := by
    rw [abs_div, abs_two]
    linarith [abs_add_le x y]
  have e4 := (float_step hδ h 1 e3 s hη ((grow_mono hδ (by norm_num) (by linarith) (by linarith)).trans hΩ)).1
  exact size_one hδ (by norm_num) e4 (by linarith) (by linarith)

/-- `ReLU(y - x) + x'`. -/
theorem maxIbp_float (hδ : 0 ≤ δ) (hη : 0 ≤ η) (h : FloatError rd δ η Ω) {x x' y a b : α} (hx : |x| ≤ a) (hx' : |x'| ≤ a) (hy : |y| ≤ b)
    (hΩ : (1 + δ) ^ 3 * (2 * (2 * a + b) + 3 * η) ≤ Ω) :
    |rd (max (rd (y + -x)) 0 + x') - (relu (y + -x) + x')| ≤ ((1 + δ) ^ 3 - 1) * (2 * a + b + 3 * η) := by
  have ha := (abs_nonneg _).trans hx
  have hb := (abs_nonneg _).trans hy
  have e1 := sum_float hδ hη h hy (show |-x| ≤ a by rwa [abs_neg]) (by
    have := grow_mono hδ (Nat.zero_le 3) (show 0 ≤ b + a + η by linarith) (show b + a + η ≤ 2 * (2 * a + b) + 3 * η by linarith)
    rw [pow_zero, one_mul] at this
    exact this.trans hΩ)
  have e2 : |y + -x| ≤ b + a := (abs_add_le _ _).trans (add_le_add hy (by rwa [abs_neg]))
  have e3 : |max (rd (y + -x)) 0 - relu (y + -x)| ≤ ((1 + δ) ^ 1 - 1) * (b + a + η) := (abs_max_sub_max_le_abs _ _ _).trans e1
  have e4 := add_near (δ := δ) 1 e3 (near_zero hδ 1 x' ha)
  have s : |relu (y + -x) + x'| + η ≤ b + a + η + a := by
    have := abs_add_le (relu (y + -x)) x'
    linarith [relu_abs (y + -x)]
  have e5 := (float_step hδ h 1 e4 s hη ((grow_mono hδ (by norm_num) (by linarith) (by linarith)).trans hΩ)).1
  exact size_one hδ (by norm_num) e5 (by linarith) (by linarith)

/-- The sum of two rounded maxima (or minima) of products, minus a product. -/
theorem three_float (hδ : 0 ≤ δ) (hη : 0 ≤ η) (h : FloatError rd δ η Ω) {x y z x' y' z' M : α} (hx : |x - x'| ≤ ((1 + δ) ^ 1 - 1) * (M + η))
    (hy : |y - y'| ≤ ((1 + δ) ^ 1 - 1) * (M + η)) (hz : |z - z'| ≤ ((1 + δ) ^ 1 - 1) * (M + η)) (hx' : |x'| ≤ M) (hy' : |y'| ≤ M) (hz' : |z'| ≤ M)
    (hΩ : (1 + δ) ^ 3 * (2 * (3 * M) + 3 * η) ≤ Ω) : |rd (rd (x + y) - z) - (x' + y' - z')| ≤ ((1 + δ) ^ 3 - 1) * (3 * M + 3 * η) := by
  have hM := (abs_nonneg _).trans hx'
  have s1 : |x' + y'| + η ≤ M + η + (M + η) := by linarith [abs_add_le x' y']
  have e1 := (float_step hδ h 1 (add_near (δ := δ) 1 hx hy) s1 hη ((grow_mono hδ (by norm_num) (by linarith) (by linarith)).trans hΩ)).1
  have e3 : |-z - -z'| ≤ ((1 + δ) ^ (1 + 1) - 1) * (M + η) := by
    rw [neg_sub_neg, abs_sub_comm]
    exact hz.trans (gamma_mono hδ (by norm_num) (by linarith))
  have s2 : |x' + y' + -z'| + η ≤ M + η + (M + η) + (M + η) := by
    have := abs_add_le (x' + y') (-z')
    rw [abs_neg] at this
    linarith
  have e4 := (float_step hδ h _ (add_near (δ := δ) _ e1 e3) s2 hη ((grow_mono hδ (by norm_num) (by linarith) (by linarith)).trans hΩ)).1
  rw [← sub_eq_add_neg, ← sub_eq_add_neg] at e4
  exact size_one hδ (by norm_num) e4 (by linarith) (by linarith)

theorem MergeOp.size_nonneg' (op : MergeOp) {a b : α} (ha : 0 ≤ a) (hb : 0 ≤ b) : 0 ≤ op.size a b := by
  cases op <;> simp only [MergeOp.size] <;> positivity

theorem MergeOp.float_call (hδ : 0 ≤ δ) (hη : 0 ≤ η) (h : FloatError rd δ η Ω) (bn : α → α → α → α → α → α) (op : MergeOp) (x y : α)
    (hΩ : (1 + δ) ^ 3 * (2 * op.size |x| |y| + 3 * η) ≤ Ω) : |op.roundedCall rd x y - op.eval x y| ≤ (floatError δ η bn).merge op |x| |y| := by
  have hx := abs_nonneg x
  have hy := abs_nonneg y
  have hxy := mul_nonneg hx hy
  have z := op.size_nonneg' hx hy
  have big : ∀ s : α, 0 ≤ s → s ≤ 2 * op.size |x| |y| + 3 * η → s ≤ Ω := fun s h0 hs => by
    have := grow_mono hδ (Nat.zero_le 3) h0 hs
    rw [pow_zero, one_mul] at this
    exact this.trans hΩ
  cases op with
  | add =>
    exact size_one hδ (by norm_num) (sum_float hδ hη h (le_refl |x|) (le_refl |y|) (big _ (by positivity) (by simp only [MergeOp.size]; linarith))) (by positivity)
      (by simp only [MergeOp.size]; linarith)
  | average => exact half_float hδ hη h le_rfl le_rfl hΩ
  | subtract =>
    have := sum_float hδ hη h (le_refl |x|) (show |-y| ≤ |y| by rw [abs_neg]) (big _ (by positivity) (by simp only [MergeOp.size]; linarith))
    rw [← sub_eq_add_neg] at this
    exact size_one hδ (by norm_num) this (by positivity) (by simp only [MergeOp.size]; linarith)
  | maximum => exact near_zero hδ 3 _ (by linarith)
  | minimum => exact near_zero hδ 3 _ (by linarith)
  | multiply =>
    exact size_one hδ (by norm_num) (prod_float hδ hη h (le_refl |x|) (le_refl |y|) (big _ (by positivity) (by simp only [MergeOp.size]; linarith))).1 (by positivity)
      (by simp only [MergeOp.size]; linarith)

theorem MergeOp.float_ibp (hδ : 0 ≤ δ) (hη : 0 ≤ η) (h : FloatError rd δ η Ω) (bn : α → α → α → α → α → α) (eps : α) (op : MergeOp)
    (u0 l0 u1 l1 : κ → α) (k : κ) (hΩ : (1 + δ) ^ 3 * (2 * op.size (max |u0 k| |l0 k|) (max |u1 k| |l1 k|) + 3 * η) ≤ Ω) :
    |(op.roundedIbp rd (u0 k) (l0 k) (u1 k) (l1 k)).1 - (op.forward (emptyDomain α) .ibp eps (ibpOnly u0 l0) (ibpOnly u1 l1)).uc k| ≤
        (floatError δ η bn).merge op (max |u0 k| |l0 k|) (max |u1 k| |l1 k|) ∧
      |(op.roundedIbp rd (u0 k) (l0 k) (u1 k) (l1 k)).2 - (op.forward (emptyDomain α) .ibp eps (ibpOnly u0 l0) (ibpOnly u1 l1)).lc k| ≤
        (floatError δ η bn).merge op (max |u0 k| |l0 k|) (max |u1 k| |l1 k|) := by
  have hib : getIbp .ibp = true := rfl
  have h0u := le_max_left |u0 k| |l0 k|
  have h0l := le_max_right |u0 k| |l0 k|
  have h1u := le_max_left |u1 k| |l1 k|
  have h1l := le_max_right |u1 k| |l1 k|
  have ha := (abs_nonneg _).trans h0u
  have hb := (abs_nonneg _).trans h1u
  generalize max |u0 k| |l0 k| = a at *
  generalize max |u1 k| |l1 k| = b at *
  have hab := mul_nonneg ha hb
  have z := op.size_nonneg' ha hb
  have big : ∀ s : α, 0 ≤ s → s ≤ 2 * op.size a b + 3 * η → s ≤ Ω := fun s h0 hs => by
    have := grow_mono hδ (Nat.zero_le 3) h0 hs
    rw [pow_zero, one_mul] at this
    exact this.trans hΩ
  have add : ∀ {x y : α}, |x| ≤ a → |y| ≤ b → a + b + η ≤ Ω → |rd (x + y) - (x + y)| ≤ ((1 + δ) ^ 3 - 1) * (a + b + 3 * η) := fun hx hy q =>
    size_one hδ (by norm_num) (sum_float hδ hη h hx hy q) (by positivity) (by linarith)
  cases op with
  | add =>
    have q := big (a + b + η) (by positivity) (by simp only [MergeOp.size]; linarith)
    simp only [MergeOp.roundedIbp, MergeOp.forward, addLayerT, hib, if_true, List.map_cons, List.map_nil, List.sum_cons, List.sum_nil, add_zero,
      tighten_ibp_eq, ibpOnly]
    exact ⟨add h0u h1u q, add h0l h1l q⟩
  | average =>
    have e : ((([ibpOnly u0 l0, ibpOnly u1 l1] : List (Full Unit Empty κ α)).length : ℕ) : α) = 2 := by simp
    simp only [MergeOp.roundedIbp, MergeOp.forward, averageLayerT, hib, if_true, e, List.map_cons, List.map_nil, List.sum_cons, List.sum_nil,
      add_zero, tighten_ibp_eq]
    exact ⟨half_float hδ hη h h0u h1u hΩ, half_float hδ hη h h0l h1l hΩ⟩
  | subtract =>
    have q := big (a + b + η) (by positivity) (by simp only [MergeOp.size]; linarith)
    simp only [MergeOp.roundedIbp, MergeOp.forward, subtractT, addT, minusT, hib, if_true, tighten_ibp_eq, ibpOnly]
    exact ⟨add h0u (show |-l1 k| ≤ b by rwa [abs_neg]) q, add h0l (show |-u1 k| ≤ b by rwa [abs_neg]) q⟩
  | maximum =>
    simp only [MergeOp.roundedIbp, roundedMaxIbp, MergeOp.forward, maximumLayerT, List.foldl_cons, List.foldl_nil, maximumT, reluT, subtractT, addT,
      minusT, hib, if_true, tighten_ibp_eq, ibpOnly]
    exact ⟨maxIbp_float hδ hη h h0l h0u h1u hΩ, maxIbp_float hδ hη h h0u h0l h1l hΩ⟩
  | minimum =>
    simp only [MergeOp.roundedIbp, roundedMaxIbp, MergeOp.forward, minimumLayerT, List.map_cons, List.map_nil, maximumLayerT, List.foldl_cons,
      List.foldl_nil, maximumT, reluT, subtractT, addT, minusT, hib, if_true, tighten_ibp_eq, ibpOnly]
    rw [neg_sub_neg, abs_sub_comm, neg_sub_neg, abs_sub_comm (relu _ + -l0 k)]
    exact ⟨maxIbp_float hδ hη h (by rwa [abs_neg]) (by rwa [abs_neg]) (by rwa [abs_neg]) hΩ,
      maxIbp_float hδ hη h (by rwa [abs_neg]) (by rwa [abs_neg]) (by rwa [abs_neg]) hΩ⟩
  | multiply =>
    have q := big (a * b + η) (by positivity) (by simp only [MergeOp.size]; linarith)
    simp only [MergeOp.roundedIbp, MergeOp.forward, multiplyLayerT, List.foldl_cons, List.foldl_nil, multiplyT, hib, if_true, tighten_ibp_eq, ibpOnly]
    have p1 := prod_float hδ hη h h0u h1u q
    have p2 := prod_float hδ hη h h0u h1l q
    have p3 := prod_float hδ hη h h0l h1u q
    have p4 := prod_float hδ hη h h0l h1l q
    refine ⟨?_, three_float hδ hη h (min_drift p4.1 p3.1) (min_drift p4.1 p2.1) p4.1 (abs_min_le p4.2 p3.2) (abs_min_le p4.2 p2.2) p4.2 hΩ⟩
    rw [mul_comm (u1 k), mul_comm (u1 k), mul_comm (l1 k)]
    exact min_drift (three_float hδ hη h (max_drift p1.1 p2.1) (max_drift p2.1 p4.1) p2.1 (abs_max_le p1.2 p2.2) (abs_max_le p2.2 p4.2) p2.2 hΩ)
      (three_float hδ hη h (max_drift p1.1 p3.1) (max_drift p3.1 p4.1) p3.1 (abs_max_le p1.2 p3.2) (abs_max_le p3.2 p4.2) p3.2 hΩ)

/-! ### Networks -/

theorem floatError_mono (hδ : 0 ≤ δ) (bn : α → α → α → α → α → α) (hbn : ∀ g b m s x y, 0 ≤ x → x ≤ y → bn g b m s x ≤ bn g b m s y) :
    (floatError δ η bn).Mono where
  lay l A B h o := by
    cases l with
    | dense kernel bias =>
      refine mul_le_mul_of_nonneg_left (add_le_add (add_le_add (Finset.sum_le_sum fun t _ => ?_) le_rfl) le_rfl) (gamma_nonneg hδ _)
      exact mul_le_mul_of_nonneg_left (h t).2 (abs_nonneg _)
    | linear L kernel bias =>
      refine mul_le_mul_of_nonneg_left (add_le_add (add_le_add (Finset.sum_le_sum fun t _ => ?_) le_rfl) le_rfl) (gamma_nonneg hδ _)
      exact mul_le_mul_of_nonneg_left (elim_le _ _ _ h) (abs_nonneg _)
    | relu gf gb => exact le_rfl
    | batchNorm gamma beta mean sd => exact hbn _ _ _ _ _ _ (h o).1 (h o).2
    | reshape e => exact le_rfl
    | skip => exact le_rfl
  merge op a a' b b' ha haa hb hbb :=
    mul_le_mul_of_nonneg_left (add_le_add (op.size_mono _ _ _ _ ha haa hb hbb) le_rfl) (gamma_nonneg hδ _)

theorem floatError_nonneg (hδ : 0 ≤ δ) (hη : 0 ≤ η) (bn : α → α → α → α → α → α) (hbn : ∀ g b m s x, 0 ≤ bn g b m s x) : (floatError δ η bn).Nonneg where
  lay {κ κ'} _ l A h o := by
    cases l with
    | dense kernel bias =>
      refine mul_nonneg (gamma_nonneg hδ _) (add_nonneg (add_nonneg (Finset.sum_nonneg fun t _ => mul_nonneg (abs_nonneg _) (h t)) (abs_nonneg _)) ?_)
      positivity
    | linear L kernel bias =>
      refine mul_nonneg (gamma_nonneg hδ _) (add_nonneg (add_nonneg (Finset.sum_nonneg fun t _ => mul_nonneg (abs_nonneg _) ?_) (abs_nonneg _)) ?_)
      · cases L.src o t with
        | none => exact le_rfl
        | some j => exact h j
      · positivity
    | relu gf gb => exact le_rfl
    | batchNorm gamma beta mean sd => exact hbn _ _ _ _ _
    | reshape e => exact le_rfl
    | skip => exact le_rfl
  merge op a b ha hb := mul_nonneg (gamma_nonneg hδ _) (by linarith [op.size_nonneg' ha hb])

theorem merge_fits (hδ : 0 ≤ δ) (op : MergeOp) {a a' b b' : α} (ha : 0 ≤ a) (haa : a ≤ a') (hb : 0 ≤ b) (hbb : b ≤ b')
    (h : (1 + δ) ^ 3 * (2 * op.size a' b' + 3 * η) ≤ Ω) : (1 + δ) ^ 3 * (2 * op.size a b + 3 * η) ≤ Ω :=
  (mul_le_mul_of_nonneg_left (by linarith [op.size_mono _ _ _ _ ha haa hb hbb]) (by linarith [one_le_grow hδ 3])).trans h

theorem Net.float_runs (hδ : 0 ≤ δ) (hη : 0 ≤ η) (h : FloatError rd δ η Ω) (bn : α → α → α → α → α → α)
    (hbn : ∀ g b m s x y, 0 ≤ x → x ≤ y → bn g b m s x ≤ bn g b m s y) (σ : α) (hσ : 0 < σ) (N : Net α ι κ) (hN : N.WF) (hsd : N.SdAbove σ) (p A : ι → α)
    (hp : ∀ i, |p i| ≤ A i) (hf : N.Fits δ η Ω bn σ A) (v : κ → α) (hv : N.RoundedCall rd bn p v) : N.Runs (floatError δ η bn) p v := by
  have hE := floatError_mono (η := η) hδ bn hbn
  induction N with
  | input => exact hv
  | layer n l ih =>
    obtain ⟨w, hw, e⟩ := hv
    have r := ih hN.1 hsd.1 hf.1 w hw
    have z := n.runs_size _ hE σ hσ hN.1 hsd.1 p A hp w r
    exact ⟨w, r, fun k => l.float_call hδ hη h bn w (hf.2.mono hδ hη fun t => ⟨abs_nonneg _, z t⟩) v e k⟩
  | merge op n0 n1 ih0 ih1 =>
    obtain ⟨w0, w1, hw0, hw1, e⟩ := hv
    have r0 := ih0 hN.1 hsd.1 hf.1 w0 hw0
    have r1 := ih1 hN.2 hsd.2 hf.2.1 w1 hw1
    have z0 := n0.runs_size _ hE σ hσ hN.1 hsd.1 p A hp w0 r0
    have z1 := n1.runs_size _ hE σ hσ hN.2 hsd.2 p A hp w1 r1
    exact ⟨w0, w1, r0, r1, fun k => by
      rw [e k]
      exact op.float_call hδ hη h bn _ _ (merge_fits hδ op (abs_nonneg _) (z0 k) (abs_nonneg _) (z1 k) (hf.2.2 k))⟩

theorem Net.float_runsIbp (hδ : 0 ≤ δ) (hη : 0 ≤ η) (h : FloatError rd δ η Ω) (bn : α → α → α → α → α → α)
    (hbn : ∀ g b m s x y, 0 ≤ x → x ≤ y → bn g b m s x ≤ bn g b m s y) (eps : α) (sl : Slope) (σ : α) (hσ : 0 < σ) (N : Net α ι κ) (hsd : N.SdAbove σ)
    (up lo A : ι → α) (hu : ∀ i, |up i| ≤ A i) (hl : ∀ i, |lo i| ≤ A i) (hf : N.Fits δ η Ω bn σ A) (u l : κ → α) (hv : N.RoundedIbp rd bn up lo u l) :
    N.RunsIbp (floatError δ η bn) eps sl up lo u l := by
  have hE := floatError_mono (η := η) hδ bn hbn
  induction N with
  | input => exact hv
  | layer n lay ih =>
    obtain ⟨u0, l0, h0, e⟩ := hv
    have r := ih hsd.1 hf.1 u0 l0 h0
    have z := n.runsIbp_size _ hE eps sl σ hσ hsd.1 up lo A hu hl u0 l0 r
    exact ⟨u0, l0, r, fun k => lay.float_ibp hδ hη h bn eps sl u0 l0 (hf.2.mono hδ hη fun t => max_abs_le (z t).1 (z t).2) u l e k⟩
  | merge op n0 n1 ih0 ih1 =>
    obtain ⟨u0, l0, u1, l1, h0, h1, e⟩ := hv
    have r0 := ih0 hsd.1 hf.1 u0 l0 h0
    have r1 := ih1 hsd.2 hf.2.1 u1 l1 h1
    have z0 := n0.runsIbp_size _ hE eps sl σ hσ hsd.1 up lo A hu hl u0 l0 r0
    have z1 := n1.runsIbp_size _ hE eps sl σ hσ hsd.2 up lo A hu hl u1 l1 r1
    refine ⟨u0, l0, u1, l1, r0, r1, fun k => ?_⟩
    have m0 := max_abs_le (z0 k).1 (z0 k).2
    have m1 := max_abs_le (z1 k).1 (z1 k).2
    have := op.float_ibp hδ hη h bn eps u0 l0 u1 l1 k (merge_fits hδ op m0.1 m0.2 m1.1 m1.2 (hf.2.2 k))
    rw [← e k] at this
    exact this

end

end Decomon
