import Verif.Model.BackRank
import Verif.Props.BackAct
import Mathlib.Tactic.Ring
import Mathlib.Tactic.Linarith
import Mathlib.Algebra.BigOperators.Intervals

/-!
C114: the backward layers of `Dense`, `BatchNormalization` and `Permute` on tensors of any rank.
-/

namespace Decomon

open Finset

section
variable {α : Type*} [Field α]

theorem hcat_fold (n units : ℕ) (f : ℕ → ℕ → ℕ → α) : ∀ (L : List ℕ),
    let H := L.foldr (fun i acc => (⟨n, units, f i⟩ : Blk α).hcat acc) ⟨n, 0, fun _ _ => 0⟩
    H.rows = n ∧ H.cols = L.length * units ∧
      ∀ r < L.length, ∀ j < units, ∀ t, H.e t (r * units + j) = f (L.getD r 0) t j := by
  intro L
  induction L with
  | nil => simp
  | cons a l ih =>
    obtain ⟨_, h2, h3⟩ := ih
    rw [List.foldr_cons]
    generalize List.foldr (fun i acc => (⟨n, units, f i⟩ : Blk α).hcat acc) ⟨n, 0, fun _ _ => 0⟩ l = acc at h2 h3
    refine ⟨rfl, ?_, ?_⟩
    · simp only [Blk.hcat, h2, List.length_cons]; ring
    · intro r hr j hj t
      simp only [Blk.hcat]
      cases r with
      | zero => simp [hj]
      | succ r =>
        have e : (r + 1) * units + j = units + (r * units + j) := by ring
        rw [e, if_neg (by omega), Nat.add_sub_cancel_left]
        simpa using h3 r (by simpa using hr) j hj t

theorem vcat_fold (n c : ℕ) (B : ℕ → Blk α) (hB : ∀ j, (B j).rows = n ∧ (B j).cols = c) : ∀ (L : List ℕ),
    let V := L.foldr (fun j acc => (B j).vcat acc) ⟨0, c, fun _ _ => 0⟩
    V.rows = L.length * n ∧ V.cols = c ∧ ∀ r < L.length, ∀ t < n, ∀ o, V.e (r * n + t) o = (B (L.getD r 0)).e t o := by
  intro L
  induction L with
  | nil => simp
  | cons a l ih =>
    obtain ⟨h1, _, h3⟩ := ih
    rw [List.foldr_cons]
    generalize List.foldr (fun j acc => (B j).vcat acc) ⟨0, c, fun _ _ => 0⟩ l = acc at h1 h3
    refine ⟨?_, (hB a).2, ?_⟩
    · simp only [Blk.vcat, h1, (hB a).1, List.length_cons]; ring
    · intro r hr t ht o
      simp only [Blk.vcat, (hB a).1]
      cases r with
      | zero => simp [ht]
      | succ r =>
        have e : (r + 1) * n + t = n + (r * n + t) := by ring
        rw [e, if_neg (by omega), Nat.add_sub_cancel_left]
        simpa using h3 r (by simpa using hr) t ht o

theorem kernelDiagByBlock_spec (n units m : ℕ) (kernel : ℕ → ℕ → α) :
    (kernelDiagByBlock n units m kernel).rows = m * n ∧ (kernelDiagByBlock n units m kernel).cols = m * units ∧
    ∀ r' < m, ∀ t < n, ∀ r < m, ∀ j < units,
      (kernelDiagByBlock n units m kernel).e (r' * n + t) (r * units + j) = if r' = r then kernel t j else 0 := by
  have hH := fun j => hcat_fold n units (fun i => if i = j then kernel else fun _ _ => (0 : α)) (List.range m)
  obtain ⟨h1, h2, h3⟩ := vcat_fold n (m * units)
    (fun j => (List.range m).foldr (fun i acc' => (⟨n, units, if i = j then kernel else fun _ _ => 0⟩ : Blk α).hcat acc')
      ⟨n, 0, fun _ _ => 0⟩) (fun j => ⟨(hH j).1, by simpa using (hH j).2.1⟩) (List.range m)
  rw [List.length_range] at h1
  refine ⟨h1, h2, ?_⟩
  intro r' hr' t ht r hr j hj
  have a := h3 r' (by simpa using hr') t ht (r * units + j)
  have b := (hH ((List.range m).getD r' 0)).2.2 r (by simpa using hr) j hj t
  unfold kernelDiagByBlock
  rw [a, b]
  have e1 : (List.range m).getD r' 0 = r' := by simp [List.getD, hr']
  have e2 : (List.range m).getD r 0 = r := by simp [List.getD, hr]
  rw [e1, e2]
  by_cases h : r' = r
  · simp [h]
  · rw [if_neg (fun e => h e.symm), if_neg h]

theorem sum_range_blocks (f : ℕ → α) (n : ℕ) : ∀ m, ∑ i ∈ range (m * n), f i = ∑ r ∈ range m, ∑ t ∈ range n, f (r * n + t)
  | 0 => by simp
  | m + 1 => by rw [Nat.succ_mul, sum_range_add, sum_range_blocks f n m, sum_range_succ]

/-- C114: given bounds of the shape `s ++ [n]` of its input, `BackwardDense` is the layer: on the flat input `x` the entry `j` of row `r` of
the output is the product of row `r` of the input with column `j` of the kernel, plus the bias; and the sizes are the announced ones. -/
theorem C114_dense (s : List ℕ) (n units : ℕ) (kernel : ℕ → ℕ → α) (bias x : ℕ → α) (k : Option ℕ) :
    let B := backwardDenseCall n units kernel bias (boundsShape true (s ++ [n]))
    (∀ r < s.prod, ∀ j < units,
      (∑ i ∈ range B.nIn, B.w i (r * units + j) * x i) + B.b (r * units + j)
        = (∑ t ∈ range n, kernel t j * x (r * n + t)) + bias j) ∧
    .ok (B.shapes k) = backwardOutputShape (k :: (s ++ [n]).map some) (k :: (s ++ [units]).map some) := by
  obtain ⟨h1, h2, h3⟩ := kernelDiagByBlock_spec n units s.prod kernel
  simp only [backwardDenseCall, boundsShape, if_true, List.dropLast_concat, FlatBack.shapes, h1, h2]
  constructor
  · intro r hr j hj
    rw [sum_range_blocks]
    have : ∀ r' ∈ range s.prod, (∑ t ∈ range n, (kernelDiagByBlock n units s.prod kernel).e (r' * n + t) (r * units + j) * x (r' * n + t))
        = if r' = r then ∑ t ∈ range n, kernel t j * x (r * n + t) else 0 := by
      intro r' hr'
      rw [sum_congr rfl fun t ht => by rw [h3 r' (mem_range.1 hr') t (mem_range.1 ht) r hr j hj]]
      by_cases h : r' = r <;> simp [h]
    rw [sum_congr rfl this, sum_ite_eq' (range s.prod) r, if_pos (mem_range.2 hr)]
    congr 2
    rw [Nat.add_comm, Nat.add_mul_mod_self_right, Nat.mod_eq_of_lt hj]
  · simp only [backwardOutputShape, List.head?_cons, List.tail_cons, prodShape_map, List.prod_append, List.prod_cons, List.prod_nil, mul_one]

/-- C114, pure `crown`: the bounds are flat, `BackwardDense` sees one row, and the sizes of its result are those of the kernel: the announced
ones exactly when there is one row. -/
theorem C114_dense_flat (s : List ℕ) (n units : ℕ) (hn : 0 < n) (kernel : ℕ → ℕ → α) (bias : ℕ → α) (k : Option ℕ) :
    let B := backwardDenseCall n units kernel bias (boundsShape false (s ++ [n]))
    B.nIn = n ∧ B.nOut = units ∧
    (.ok (B.shapes k) = backwardOutputShape (k :: (s ++ [n]).map some) (k :: (s ++ [units]).map some) ↔ s.prod = 1) := by
  obtain ⟨h1, h2, _⟩ := kernelDiagByBlock_spec n units 1 kernel
  rw [one_mul] at h1 h2
  have e : boundsShape false (s ++ [n]) = [(s ++ [n]).prod] := rfl
  simp only [backwardDenseCall, e, List.dropLast_singleton, List.prod_nil, FlatBack.shapes, h1, h2, backwardOutputShape, List.head?_cons,
    List.tail_cons, prodShape_map, List.prod_append, List.prod_cons, mul_one, Except.ok.injEq, List.cons.injEq, Option.some.injEq,
    true_and, and_true]
  constructor
  · rintro ⟨⟨h, _⟩, _⟩
    exact (Nat.eq_of_mul_eq_mul_right hn (by rw [one_mul]; exact h)).symm
  · intro h; simp [h]

/-- C114, pure `crown` (refuted): when `Dense` has two rows or more, the layer that chains its bounds with those of the layer below (made
with the announced shapes, backward_cloning.py:151-153) raises `ValueError`; every model has such a layer below, if only its input. -/
theorem C114_dense_crown_refuted (s : List ℕ) (n units : ℕ) (hn : 0 < n) (hs : s.prod ≠ 1) (kernel : ℕ → ℕ → α)
    (bias : ℕ → α) (k nB : Option ℕ) (other : List KShape) (ho : other.length = 4) :
    mergeLayerShapes [k, nB, some (s.prod * n)] [k, some (s.prod * n), some (s.prod * units)]
      (other ++ (backwardDenseCall n units kernel bias (boundsShape false (s ++ [n]))).shapes k) = .error .valueError := by
  obtain ⟨h1, h2, _⟩ := C114_dense_flat s n units hn kernel bias k
  have hne : ¬ s.prod * n = n := fun h => hs (Nat.eq_of_mul_eq_mul_right hn (by rw [one_mul]; exact h))
  match other, ho with
  | [a, b, c, d], _ => simp [FlatBack.shapes, h1, h2, mergeLayerShapes, specOk, hne]

/-- The first row of the sum of a `2 × 3` input with the same kernel, and the two shapes of the flat case. -/
example (x : ℕ → ℚ) :
    let K : ℕ → ℕ → ℚ := fun t j => 2 * t + j + 1
    let B := backwardDenseCall 3 2 K (fun _ => 5) (boundsShape true [2, 3])
    (∑ i ∈ range B.nIn, B.w i (1 * 2 + 0) * x i) + B.b (1 * 2 + 0) = (∑ t ∈ range 3, K t 0 * x (1 * 3 + t)) + 5 :=
  (C114_dense [2] 3 2 (fun t j => (2 * t + j + 1 : ℚ)) (fun _ => 5) x none).1 1 (by norm_num) 0 (by norm_num)

example : (backwardDenseCall 3 2 (fun t j => (2 * t + j + 1 : ℚ)) (fun _ => 0) (boundsShape false [1, 3])).nIn = 3 ∧
    Except.ok (ε := PyErr) ((backwardDenseCall 3 2 (fun t j => (2 * t + j + 1 : ℚ)) (fun _ => 0) (boundsShape false [1, 3])).shapes none) =
      backwardOutputShape [none, some 1, some 3] [none, some 1, some 2] :=
  ⟨(C114_dense_flat [1] 3 2 (by norm_num) _ _ none).1, ((C114_dense_flat [1] 3 2 (by norm_num) _ _ none).2.2).mpr rfl⟩

/-- `BackwardDense` of the kernel `[[1, 2], [3, 4], [5, 6]]` on `2 × 3`: given the bounds of a forward pass it has sizes `6 × 4` and reads
`x₃, x₄, x₅` in its second row; in pure `crown` it has sizes `3 × 2`. -/
example : let K : ℕ → ℕ → ℚ := fun t j => 2 * t + j + 1
    let B := backwardDenseCall 3 2 K (fun _ => 0) (boundsShape true [2, 3])
    let B' := backwardDenseCall 3 2 K (fun _ => 0) (boundsShape false [2, 3])
    (B.nIn, B.nOut) = (6, 4) ∧ (List.range 6).map (B.w · 3) = [0, 0, 0, 2, 4, 6] ∧ (B'.nIn, B'.nOut) = (3, 2) := by decide +kernel

/-! ### Batch normalization -/

/-- C114: given bounds of the shape `s₁ ++ [c] ++ s₂` of its input, with the axis of the layer (counted from the front with the batch, or from
the back) at `c`, `BackwardBatchNormalization` scales and shifts the entry at `(p, i, q)` by the numbers of channel `i`, in each sample. -/
theorem C114_batchnorm (s₁ s₂ : List ℕ) (c : ℕ) (axis : ℤ) (ha : axis = s₁.length + 1 ∨ axis = -(s₂.length : ℤ) - 1) (g b x : ℕ → α)
    (batch : ℕ) :
    ∃ F, backwardBatchNormCall c axis g b batch (boundsShape true (s₁ ++ [c] ++ s₂)) = .ok (batch, F) ∧
      ∀ k, (F k).nIn = (s₁ ++ [c] ++ s₂).prod ∧ (F k).nOut = (s₁ ++ [c] ++ s₂).prod ∧
        ∀ p < s₁.prod, ∀ i < c, ∀ q < s₂.prod,
          let o := (p * c + i) * s₂.prod + q
          (∑ j ∈ range (F k).nIn, (F k).w j o * x j) + (F k).b o = g i * x o + b i := by
  have hax : normAxis ((s₁ ++ [c] ++ s₂).length + 1) axis = some (s₁.length + 1) := by
    have hl : (s₁ ++ [c] ++ s₂).length = s₁.length + 1 + s₂.length := by simp; omega
    rw [hl]; unfold normAxis
    rcases ha with rfl | rfl
    · rw [if_pos (by constructor <;> push_cast <;> omega)]; simp only [Option.some.injEq]; omega
    · rw [if_neg (by push_cast; omega), if_pos (by constructor <;> push_cast <;> omega)]
      simp only [Option.some.injEq]; push_cast; omega
  have hbs : boundsShape true (s₁ ++ [c] ++ s₂) = s₁ ++ [c] ++ s₂ := rfl
  have hget : (s₁ ++ [c] ++ s₂).getD s₁.length 0 = c := by simp [List.getD]
  have hdrop : (s₁ ++ [c] ++ s₂).drop (s₁.length + 1) = s₂ := by
    rw [List.drop_append_of_le_length (by simp), List.drop_eq_nil_of_le (by simp), List.nil_append]
  have hprod : (s₁ ++ [c] ++ s₂).prod = (s₁.prod * c) * s₂.prod := by simp [mul_assoc]
  have key : ∀ (v u : ℕ → α), (∀ p < s₁.prod, ∀ i < c, ∀ q < s₂.prod, v ((p * c + i) * s₂.prod + q) = g i ∧
      u ((p * c + i) * s₂.prod + q) = b i) → ∀ p < s₁.prod, ∀ i < c, ∀ q < s₂.prod,
      (∑ j ∈ range (s₁ ++ [c] ++ s₂).prod, (if j = (p * c + i) * s₂.prod + q then v ((p * c + i) * s₂.prod + q) else 0) * x j)
        + u ((p * c + i) * s₂.prod + q) = g i * x ((p * c + i) * s₂.prod + q) + b i := by
    intro v u h p hp i hi q hq
    have hlt : (p * c + i) * s₂.prod + q < (s₁ ++ [c] ++ s₂).prod := by
      rw [hprod]
      have h1 : p * c + i + 1 ≤ s₁.prod * c := by
        calc p * c + i + 1 ≤ p * c + c := by omega
          _ = (p + 1) * c := by ring
          _ ≤ s₁.prod * c := Nat.mul_le_mul_right _ hp
      calc (p * c + i) * s₂.prod + q < (p * c + i) * s₂.prod + s₂.prod := by omega
        _ = (p * c + i + 1) * s₂.prod := by ring
        _ ≤ _ := Nat.mul_le_mul_right _ h1
    simp only [ite_mul, zero_mul]
    rw [sum_ite_eq', if_pos (mem_range.2 hlt), (h p hp i hi q hq).1, (h p hp i hi q hq).2]
  by_cases hc : c = 1
  · refine ⟨(fun _ => ⟨(s₁ ++ [c] ++ s₂).prod, (s₁ ++ [c] ++ s₂).prod, fun i o => if i = o then g 0 else 0, fun o => b 0⟩), ?_, fun k => ⟨?_, ?_, ?_⟩⟩
    · simp only [backwardBatchNormCall, hbs, hax, hget, hdrop, if_pos hc]
    · rfl
    · rfl
    · exact key (fun _ => g 0) (fun _ => b 0) fun p _ i hi q _ => by
        have : i = 0 := by omega
        exact ⟨by rw [this], by rw [this]⟩
  · refine ⟨(fun _ => ⟨(s₁ ++ [c] ++ s₂).prod, (s₁ ++ [c] ++ s₂).prod, fun i o => if i = o then g (o / s₂.prod % c) else 0, fun o => b (o / s₂.prod % c)⟩), ?_, fun k => ⟨?_, ?_, ?_⟩⟩
    · simp only [backwardBatchNormCall, hbs, hax, hget, hdrop, if_neg hc, if_true]
    · rfl
    · rfl
    · exact key (fun o => g (o / s₂.prod % c)) (fun o => b (o / s₂.prod % c)) fun p _ i hi q hq => by
        have : ((p * c + i) * s₂.prod + q) / s₂.prod % c = i := by
          rw [Nat.add_comm, Nat.add_mul_div_right _ _ (by omega), Nat.div_eq_of_lt hq, zero_add, Nat.add_comm,
            Nat.add_mul_mod_self_right, Nat.mod_eq_of_lt hi]
        simp only [this, and_self]

/-- C114, pure `crown`: on flat bounds of `N` entries a layer with `c` channels, `c` neither 1 nor `N`, raises for every axis but -2:
`ValueError` for the axes -1 and 1, `IndexError` for those beyond. -/
theorem C114_batchnorm_crown_refuted (s : List ℕ) (c : ℕ) (h1 : c ≠ 1) (hN : c ≠ s.prod) (axis : ℤ) (h0 : axis ≠ 0) (h2 : axis ≠ -2)
    (g b : ℕ → α) (batch : ℕ) :
    backwardBatchNormCall c axis g b batch (boundsShape false s) = .error (if axis = -1 ∨ axis = 1 then .valueError else .indexError) := by
  have e : boundsShape false s = [s.prod] := rfl
  rw [e]
  by_cases ha : axis = -1 ∨ axis = 1
  · have hn : normAxis ([s.prod].length + 1) axis = some 1 := by
      rcases ha with rfl | rfl <;> rfl
    simp only [backwardBatchNormCall, hn, if_neg h1, if_pos ha]
    rw [if_neg (fun h => hN (by simpa [List.getD] using h.symm))]
  · have hn : normAxis ([s.prod].length + 1) axis = none := by
      unfold normAxis
      rw [if_neg (by simp; omega), if_neg (by simp; omega)]
    simp only [backwardBatchNormCall, hn, if_neg ha]

/-- C114, pure `crown` with the axis -2: a batch of `c` samples raises nothing, and sample `k` is scaled throughout by the number of channel
`k`. -/
theorem C114_batchnorm_axis_refuted (s : List ℕ) (c : ℕ) (h1 : c ≠ 1) (g b : ℕ → α) :
    ∃ F, backwardBatchNormCall c (-2) g b c (boundsShape false s) = .ok (c, F) ∧
      ∀ k, ∀ o < s.prod, (F k).w o o = g k ∧ (F k).b o = b k := by
  have hn : normAxis ([s.prod].length + 1) (-2) = some 0 := rfl
  refine ⟨fun k => ⟨[s.prod].prod, [s.prod].prod, fun i o => if i = o then g k else 0, fun _ => b k⟩, ?_, ?_⟩
  · simp only [boundsShape, Bool.false_eq_true, if_false, backwardBatchNormCall, hn, if_neg h1, true_or, if_true]
  · intro k o _; simp

/-- C114, pure `crown`: with one channel, or on inputs that are flat already, the flat bounds are enough. -/
theorem C114_batchnorm_flat_partial (s : List ℕ) (c : ℕ) (hc : c = 1 ∨ s = [c]) (axis : ℤ) (ha : axis = -1 ∨ axis = 1) (g b : ℕ → α)
    (batch : ℕ) :
    backwardBatchNormCall c axis g b batch (boundsShape false s) =
      .ok (batch, fun _ => ⟨s.prod, s.prod, fun i o => if i = o then g (o % c) else 0, fun o => b (o % c)⟩) := by
  have hn : normAxis ([s.prod].length + 1) axis = some 1 := by
    rcases ha with rfl | rfl <;> rfl
  simp only [boundsShape, Bool.false_eq_true, if_false, backwardBatchNormCall, hn]
  rcases hc with rfl | rfl
  · simp [Nat.mod_one]
  · by_cases h : c = 1
    · subst h; simp [Nat.mod_one]
    · simp [h, List.getD]

example (x : ℕ → ℚ) : ∃ F, backwardBatchNormCall 2 (-1) (fun i => (i : ℚ) + 1) (fun i => 10 * i) 5 (boundsShape true [3, 2]) = .ok (5, F) ∧
    (∑ j ∈ range (F 0).nIn, (F 0).w j ((2 * 2 + 1) * 1 + 0) * x j) + (F 0).b ((2 * 2 + 1) * 1 + 0) = ((1 : ℕ) + 1) * x ((2 * 2 + 1) * 1 + 0) + 10 * (1 : ℕ) := by
  obtain ⟨F, h, hk⟩ := C114_batchnorm [3] [] 2 (-1) (.inr rfl) (fun i => (i : ℚ) + 1) (fun i => 10 * i) x 5
  exact ⟨F, h, (hk 0).2.2 2 (by norm_num) 1 (by norm_num) 0 (by norm_num)⟩

example : backwardBatchNormCall 2 (-1) (fun i => (i : ℚ) + 1) (fun _ => 0) 5 (boundsShape false [2]) =
    .ok (5, fun _ => ⟨2, 2, fun i o => if i = o then ((o % 2 : ℕ) : ℚ) + 1 else 0, fun _ => 0⟩) :=
  C114_batchnorm_flat_partial [2] 2 (.inr rfl) (-1) (.inl rfl) (fun i => (i : ℚ) + 1) (fun _ => 0) 5

/-- `BatchNormalization` with its default axis on `2 × 2 × 2`: the bounds of a forward pass give the right numbers, flat ones raise. -/
example : (backwardBatchNormCall 2 (-1) (fun i => (i : ℚ) + 1) (fun _ => 0) 5 (boundsShape true [2, 2, 2])).map
      (fun r => (r.1, (List.range 8).map fun o => (r.2 0).w o o)) = .ok (5, [1, 2, 1, 2, 1, 2, 1, 2]) ∧
    (backwardBatchNormCall 2 1 (fun i => (i : ℚ) + 1) (fun _ => 0) 5 (boundsShape true [2, 2, 2])).map
      (fun r => (r.1, (List.range 8).map fun o => (r.2 0).w o o)) = .ok (5, [1, 1, 1, 1, 2, 2, 2, 2]) ∧
    (backwardBatchNormCall 2 (-1) (fun i => (i : ℚ) + 1) (fun _ => 0) 5 (boundsShape false [2, 2, 2])).map (fun r => r.1)
      = .error .valueError := by decide +kernel

end

/-! ### Permute -/

/-- C114: `BackwardPermute` can permute the axes of the bounds of a forward pass; in pure `crown` it raises for every tensor of rank 3 or
more. -/
theorem C114_permute (dims s : List ℕ) (h : dims.length = s.length) :
    backwardPermuteAxes dims (boundsShape true s) = .ok () ∧
    (backwardPermuteAxes dims (boundsShape false s) = .error .valueError ↔ s.length ≠ 1) := by
  simp only [backwardPermuteAxes, boundsShape, h, if_true, Bool.false_eq_true, if_false, List.length_singleton, true_and]
  by_cases hs : s.length = 1 <;> simp [hs]

example : backwardPermuteAxes [3, 1, 2] (boundsShape true [4, 5, 6]) = .ok () ∧ backwardPermuteAxes [3, 1, 2] (boundsShape false [4, 5, 6]) = .error .valueError :=
  ⟨(C114_permute [3, 1, 2] [4, 5, 6] rfl).1, (C114_permute [3, 1, 2] [4, 5, 6] rfl).2.mpr (by decide)⟩

example : backwardPermuteAxes [2, 1] (boundsShape false [2, 3]) = .error .valueError ∧
    backwardPermuteAxes [2, 1] (boundsShape true [2, 3]) = .ok () := by decide +kernel

end Decomon
