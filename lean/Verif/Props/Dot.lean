import Verif.Model.Dot
import Verif.Lemmas.Exact
import Verif.Props.Layers
import Verif.Props.Shapes
import Mathlib.Analysis.Real.Sqrt

/-! Property C98: the layer Dot, its parameters and its shape. -/

namespace Decomon

/-! ### C98: values -/

/-- Specification: what `keras.layers.Dot` computes; with `normalize=True` the cosine of the two vectors (of positive norm). -/
noncomputable def kerasDot {κ0 κ1 o0 o1 n : Type*} [Fintype n] (normalize : Bool) (e0 : n × o0 → κ0) (e1 : n × o1 → κ1) (y0 : κ0 → ℝ)
    (y1 : κ1 → ℝ) (o : o0 × o1) : ℝ :=
  let s := ∑ t, y0 (e0 (t, o.1)) * y1 (e1 (t, o.2))
  if normalize then s / (√(∑ t, y0 (e0 (t, o.1)) ^ 2) * √(∑ t, y1 (e1 (t, o.2)) ^ 2)) else s

theorem dotLayerT_exact {X ι κ0 κ1 o0 o1 n α : Type} [Fintype ι] [Fintype n] [Field α] [LinearOrder α] [IsStrictOrderedRing α]
    (D : PertDomain X ι α) (m : Mode) (e0 : n × o0 → κ0) (e1 : n × o1 → κ1) (f0 : Full X ι κ0 α) (f1 : Full X ι κ1 α) (p : ι → α)
    (h0 : D.Point f0.x p) (h1 : D.Point f1.x p) (y0 : κ0 → α) (y1 : κ1 → α) (v0 : ExactAt m f0 p y0) (v1 : ExactAt m f1 p y1) :
    ExactAt m (dotLayerT D m e0 e1 f0 f1) p (fun o => ∑ t, y0 (e0 (t, o.1)) * y1 (e1 (t, o.2))) := by
  have b0 : ExactAt m (f0.reindex fun q : (o0 × o1) × n => e0 (q.2, q.1.1)) p (fun q => y0 (e0 (q.2, q.1.1))) :=
    ⟨fun hi k => v0.const hi _, fun ha k => v0.aff ha _⟩
  have b1 : ExactAt m (f1.reindex fun q : (o0 × o1) × n => e1 (q.2, q.1.2)) p (fun q => y1 (e1 (q.2, q.1.2))) :=
    ⟨fun hi k => v1.const hi _, fun ha k => v1.aff ha _⟩
  have c := multiplyT_exact D m _ _ p (by simpa [Full.reindex] using h0) (by simpa [Full.reindex] using h1) _ _ b0 b1
  have t := (tighten_exact D m false true _ p (by simpa [multiplyT, Full.reindex] using h0) _ c).1
  refine ⟨fun hi k => ?_, fun ha k => ?_⟩
  · simp only [dotLayerT, sumT, hi, if_true, fun q => (t.const hi q).1, fun q => (t.const hi q).2, and_self]
  · simp only [dotLayerT, sumT, ha, if_true]
    rw [affEval_sum, affEval_sum]
    simp only [fun q => (t.aff ha q).1, fun q => (t.aff ha q).2, and_self]

section
variable {X ι κ0 κ1 o0 o1 n : Type} [Fintype ι] [Fintype n]

/-- C98: the bounds enclose the output of the layer when `normalize=False`, and with `normalize=True` at the entries where the two vectors
are zero-product or their norms multiply to one.  Missing with respect to the full claim: every other input with `normalize=True`
(`C98_normalize_refuted`). -/
theorem C98_dot_valid_partial (D : PertDomain X ι ℝ) (m : Mode) (normalize : Bool) (e0 : n × o0 → κ0) (e1 : n × o1 → κ1)
    (f0 : Full X ι κ0 ℝ) (f1 : Full X ι κ1 ℝ) (R : Set (ι → ℝ)) (h0 : D.Sound f0.x R) (h1 : D.Sound f1.x R) (p : ι → ℝ) (hp : p ∈ R)
    (y0 : κ0 → ℝ) (y1 : κ1 → ℝ) (v0 : Valid m false f0 p y0) (v1 : Valid m false f1 p y1)
    (hn : normalize = true → ∀ o : o0 × o1, ∑ t, y0 (e0 (t, o.1)) * y1 (e1 (t, o.2)) = 0 ∨
      √(∑ t, y0 (e0 (t, o.1)) ^ 2) * √(∑ t, y1 (e1 (t, o.2)) ^ 2) = 1) :
    ∃ out, dotCall D m false normalize e0 e1 f0 f1 = .ok out ∧ Valid m false out p (kerasDot normalize e0 e1 y0 y1) := by
  refine ⟨_, rfl, ?_⟩
  have e : kerasDot normalize e0 e1 y0 y1 = fun o : o0 × o1 => ∑ t, y0 (e0 (t, o.1)) * y1 (e1 (t, o.2)) := by
    funext o
    unfold kerasDot
    cases normalize with
    | false => simp
    | true => rcases hn rfl o with h | h <;> simp [h]
  rw [e]
  exact C62_dot_valid D m e0 e1 f0 f1 R h0 h1 p hp y0 y1 v0 v1

/-- C98: with `dc_decomp=True` the layer raises `NotImplementedError` on all inputs, in every mode. -/
theorem C98_dot_dc (D : PertDomain X ι ℝ) (m : Mode) (normalize : Bool) (e0 : n × o0 → κ0) (e1 : n × o1 → κ1) (f0 : Full X ι κ0 ℝ)
    (f1 : Full X ι κ1 ℝ) : dotCall D m true normalize e0 e1 f0 f1 = .error .notImplemented := rfl

/-- C98: with `normalize=True`, for inputs known exactly (a domain reduced to one point), the returned bounds never enclose the output of
the layer at an entry where the product is not zero and the norms do not multiply to one, in any mode. -/
theorem C98_normalize_refuted (D : PertDomain X ι ℝ) (m : Mode) (e0 : n × o0 → κ0) (e1 : n × o1 → κ1) (f0 : Full X ι κ0 ℝ)
    (f1 : Full X ι κ1 ℝ) (p : ι → ℝ) (h0 : D.Point f0.x p) (h1 : D.Point f1.x p) (y0 : κ0 → ℝ) (y1 : κ1 → ℝ)
    (v0 : ExactAt m f0 p y0) (v1 : ExactAt m f1 p y1) (o : o0 × o1) (hs : ∑ t, y0 (e0 (t, o.1)) * y1 (e1 (t, o.2)) ≠ 0)
    (hn : √(∑ t, y0 (e0 (t, o.1)) ^ 2) * √(∑ t, y1 (e1 (t, o.2)) ^ 2) ≠ 1) :
    ∃ out, dotCall D m false true e0 e1 f0 f1 = .ok out ∧ ¬ Valid m false out p (kerasDot true e0 e1 y0 y1) := by
  refine ⟨_, rfl, fun v => ?_⟩
  have ex := dotLayerT_exact D m e0 e1 f0 f1 p h0 h1 y0 y1 v0 v1
  have key : kerasDot true e0 e1 y0 y1 o = ∑ t, y0 (e0 (t, o.1)) * y1 (e1 (t, o.2)) := by
    by_cases hi : getIbp m = true
    · have a := v.const hi o
      have b := ex.const hi o
      rw [b.1, b.2] at a
      exact le_antisymm a.2 a.1
    · have ha : getAffine m = true := by cases m <;> simp_all [getIbp, getAffine]
      have a := v.aff ha o
      have b := ex.aff ha o
      rw [b.1, b.2] at a
      exact le_antisymm a.2 a.1
  simp only [kerasDot, if_true] at key
  have hpos : √(∑ t, y0 (e0 (t, o.1)) ^ 2) * √(∑ t, y1 (e1 (t, o.2)) ^ 2) ≠ 0 := by
    intro h
    rw [h, div_zero] at key
    exact hs key.symm
  rw [div_eq_iff hpos] at key
  exact hn (mul_left_cancel₀ hs (by rw [mul_one]; exact key.symm))

end

/-- Non-vacuity of C98 (`normalize`): the vectors `(3)` and `(4)`, known exactly: the layer returns 1, decomon 12. -/
example (p : Fin 1 → ℝ) :
    let D : PertDomain Unit (Fin 1) ℝ := ⟨fun _ w b => affEval w b p, fun _ w b => affEval w b p⟩
    let f (c : ℝ) : Full Unit (Fin 1) (Fin 1) ℝ := ⟨(), fun _ => c, fun _ _ => 0, fun _ => c, fun _ => c, fun _ _ => 0, fun _ => c, fun _ => 0, fun _ => 0⟩
    let e : Fin 1 × Unit → Fin 1 := fun q => q.1
    D.Point () p ∧ ExactAt .ibp (f 3) p (fun _ => 3) ∧ ExactAt .ibp (f 4) p (fun _ => 4) ∧
    (∑ t, (fun _ => (3 : ℝ)) (e (t, ())) * (fun _ => (4 : ℝ)) (e (t, ()))) = 12 ∧
    √(∑ t, (fun _ => (3 : ℝ)) (e (t, ())) ^ 2) * √(∑ t, (fun _ => (4 : ℝ)) (e (t, ())) ^ 2) = 12 ∧
    kerasDot true e e (fun _ => 3) (fun _ => 4) ((), ()) = 1 := by
  have r3 : √((3 : ℝ) ^ 2) = 3 := Real.sqrt_sq (by norm_num)
  have r4 : √((4 : ℝ) ^ 2) = 4 := Real.sqrt_sq (by norm_num)
  refine ⟨fun _ _ => ⟨rfl, rfl⟩, ⟨by simp, by simp [getAffine]⟩, ⟨by simp, by simp [getAffine]⟩, by norm_num, ?_, ?_⟩
  · simp only [Finset.univ_unique, Finset.sum_const, Finset.card_singleton, one_smul, r3, r4]; norm_num
  · simp only [kerasDot, Finset.univ_unique, Finset.sum_const, Finset.card_singleton, one_smul, r3, r4, if_true]; norm_num

/-- C98: exactly two inputs are multiplied; one input is returned as it is; `NotImplementedError` for any other number and for
`dc_decomp=True`. -/
theorem C98_arity (dc : Bool) (k : ℕ) :
    (dotArity dc k = .ok .multiplied ↔ dc = false ∧ k = 2) ∧ (dotArity dc k = .ok .returned ↔ dc = false ∧ k = 1) ∧
    ∀ e, dotArity dc k = .error e → e = .notImplemented := by
  unfold dotArity
  cases dc <;> by_cases h1 : k = 1 <;> by_cases h2 : k = 2 <;> simp_all

example : dotArity false 3 = .error .notImplemented ∧ dotArity true 2 = .error .notImplemented := by decide

/-! ### C98: shapes -/

theorem expandShape_last (p n : ℕ) (s : List ℕ) : expandShape true p n s = s ++ List.replicate n 1 := by
  induction n generalizing s with
  | zero => simp [expandShape]
  | succ n ih => simp [expandShape, ih, List.replicate_succ]

theorem expandShape_two (n a b : ℕ) (s : List ℕ) : expandShape false 2 n (a :: b :: s) = a :: b :: (List.replicate n 1 ++ s) := by
  induction n generalizing s with
  | zero => simp [expandShape]
  | succ n ih =>
    have : (a :: b :: s).insertIdx 2 1 = a :: b :: 1 :: s := by simp
    simp only [expandShape, Bool.false_eq_true, if_false, this, ih, List.replicate_succ', List.append_assoc, List.singleton_append]

theorem mulShape_ones_right (s : List ℕ) : mulShape s (List.replicate s.length 1) = .ok s := by
  induction s with
  | nil => rfl
  | cons a s ih =>
    simp only [List.length_cons, List.replicate_succ, mulShape, ih]
    by_cases h : a = 1 <;> simp [h, Except.map]

theorem mulShape_ones_left (s : List ℕ) : mulShape (List.replicate s.length 1) s = .ok s := by
  induction s with
  | nil => rfl
  | cons a s ih =>
    simp only [List.length_cons, List.replicate_succ, mulShape, ih]
    by_cases h : a = 1 <;> simp [h, Except.map, eq_comm]

theorem mulShape_append (s t s' t' u v : List ℕ) (h1 : mulShape s t = .ok u) (h2 : mulShape s' t' = .ok v) :
    mulShape (s ++ s') (t ++ t') = .ok (u ++ v) := by
  induction s generalizing t u with
  | nil =>
    cases t with
    | nil => simp only [mulShape, Except.ok.injEq] at h1; subst h1; simpa using h2
    | cons b t => simp [mulShape] at h1
  | cons a s ih =>
    cases t with
    | nil => simp [mulShape] at h1
    | cons b t =>
      simp only [mulShape, List.cons_append] at h1 ⊢
      by_cases hab : a = b
      · rw [if_pos hab] at h1 ⊢
        cases hs : mulShape s t with
        | error e => rw [hs] at h1; simp [Except.map] at h1
        | ok w => rw [hs] at h1; simp only [Except.map, Except.ok.injEq] at h1; rw [ih t w hs]; subst h1; rfl
      · rw [if_neg hab] at h1 ⊢
        by_cases ha : a = 1
        · rw [if_pos ha] at h1 ⊢
          cases hs : mulShape s t with
          | error e => rw [hs] at h1; simp [Except.map] at h1
          | ok w => rw [hs] at h1; simp only [Except.map, Except.ok.injEq] at h1; rw [ih t w hs]; subst h1; rfl
        · rw [if_neg ha] at h1 ⊢
          by_cases hb : b = 1
          · rw [if_pos hb] at h1 ⊢
            cases hs : mulShape s t with
            | error e => rw [hs] at h1; simp [Except.map] at h1
            | ok w => rw [hs] at h1; simp only [Except.map, Except.ok.injEq] at h1; rw [ih t w hs]; subst h1; rfl
          · rw [if_neg hb] at h1; simp at h1

theorem map_getD_range (s : List ℕ) : (List.range s.length).map (fun i => s.getD i 0) = s := by
  apply List.ext_getElem
  · simp
  · intro i h1 h2
    rw [List.getElem_map, List.getElem_range, List.getD_eq_getElem _ _ h2]

theorem permuteShape_eq (b : ℕ) (t : List ℕ) (a : ℤ) (k : ℕ) (hk : normAxis (b :: t).length a = some (k + 1)) (hkt : k < t.length) :
    permuteShape (b :: t) a = .ok (b :: t[k] :: t.eraseIdx k) := by
  unfold permuteShape
  by_cases h : (b :: t).length ≤ 2
  · rw [if_pos h]
    match t, hkt with
    | [c], hkt =>
      have : k = 0 := by simpa using hkt
      subst this
      rfl
    | [], hkt => simp at hkt
    | _ :: _ :: _, _ => simp at h
  · rw [if_neg h]
    obtain ⟨L, h1, h2⟩ := moveIndex_eq _ a (k + 1) 1 hk (by omega)
    rw [Nat.cast_one] at h1
    rw [h1]
    simp only [Except.map, Except.ok.injEq]
    have : (L.map fun c => (b :: t).getD ((normAxis (b :: t).length c).getD (b :: t).length) 0) =
        (L.map fun c => (normAxis (b :: t).length c).getD (b :: t).length).map fun i => (b :: t).getD i 0 := by
      rw [List.map_map]; rfl
    rw [this, h2, moveList, List.map_insertIdx, ← List.eraseIdx_map, map_getD_range]
    simp only [List.getD_cons_succ, List.eraseIdx_cons_succ, List.getD_eq_getElem _ _ hkt]
    simp

theorem dotCallShape_eq (b n : ℕ) (t0 t1 : List ℕ) (a0 a1 : ℤ) (k0 k1 : ℕ) (h0 : normAxis (b :: t0).length a0 = some (k0 + 1))
    (h1 : normAxis (b :: t1).length a1 = some (k1 + 1)) (l0 : k0 < t0.length) (l1 : k1 < t1.length) (e0 : t0[k0] = n) (e1 : t1[k1] = n) :
    dotCallShape (b :: t0) (b :: t1) a0 a1 = .ok (b :: (t0.eraseIdx k0 ++ t1.eraseIdx k1)) := by
  unfold dotCallShape
  rw [permuteShape_eq b t0 a0 k0 h0 l0, permuteShape_eq b t1 a1 k1 h1 l1]
  simp only [e0, e1, expandShape_last, expandShape_two, List.length_cons]
  have r0 : t0.length + 1 - 2 = (t0.eraseIdx k0).length := by rw [List.length_eraseIdx_of_lt l0]; omega
  have r1 : t1.length + 1 - 2 = (t1.eraseIdx k1).length := by rw [List.length_eraseIdx_of_lt l1]; omega
  rw [r0, r1]
  have := mulShape_append _ _ _ _ _ _ (mulShape_ones_right (t0.eraseIdx k0)) (mulShape_ones_left (t1.eraseIdx k1))
  simp only [List.cons_append, mulShape, if_true, this, Except.map]
  rfl

theorem kerasDotShape_eq (b : ℕ) (t0 t1 : List ℕ) (a0 a1 : ℤ) (k0 k1 : ℕ) (h0 : normAxis (b :: t0).length a0 = some (k0 + 1))
    (h1 : normAxis (b :: t1).length a1 = some (k1 + 1)) :
    kerasDotShape (b :: t0) (b :: t1) a0 a1 =
      .ok (if t0.eraseIdx k0 ++ t1.eraseIdx k1 = [] then [b, 1] else b :: (t0.eraseIdx k0 ++ t1.eraseIdx k1)) := by
  simp only [kerasDotShape, npDelete, h0, h1, List.eraseIdx_cons_succ, List.tail_cons]
  by_cases h : t0.eraseIdx k0 ++ t1.eraseIdx k1 = []
  · simp [h]
  · have : ¬ ((b :: t0.eraseIdx k0) ++ t1.eraseIdx k1).length = 1 := by
      intro hl
      apply h
      rw [List.cons_append, List.length_cons] at hl
      exact List.length_eq_zero_iff.mp (by omega)
    rw [if_neg h]
    exact if_neg this

/-- C98, shapes: the tensors have the announced shape as soon as one of the two inputs has rank at least 3 (with the batch axis), for all
valid axes, positive or negative, of equal sizes.  Missing: two inputs of rank 2, where it is false (`C98_vectors_refuted`). -/
theorem C98_shape_partial (b n : ℕ) (t0 t1 : List ℕ) (a0 a1 : ℤ) (k0 k1 : ℕ) (h0 : normAxis (b :: t0).length a0 = some (k0 + 1))
    (h1 : normAxis (b :: t1).length a1 = some (k1 + 1)) (l0 : k0 < t0.length) (l1 : k1 < t1.length) (e0 : t0[k0] = n) (e1 : t1[k1] = n)
    (hr : 2 ≤ t0.length ∨ 2 ≤ t1.length) :
    ∃ s, dotCallShape (b :: t0) (b :: t1) a0 a1 = .ok s ∧ kerasDotShape (b :: t0) (b :: t1) a0 a1 = .ok s := by
  refine ⟨_, dotCallShape_eq b n t0 t1 a0 a1 k0 k1 h0 h1 l0 l1 e0 e1, ?_⟩
  rw [kerasDotShape_eq b t0 t1 a0 a1 k0 k1 h0 h1, if_neg]
  intro h
  have := congrArg List.length h
  rw [List.length_append, List.length_eraseIdx_of_lt l0, List.length_eraseIdx_of_lt l1, List.length_nil] at this
  omega

/-- C98, shapes: the product of two vectors, for every batch size and length and both ways to write the axes: `(batch, 1)` is announced,
tensors of shape `(batch,)` are returned. -/
theorem C98_vectors_refuted (b n : ℕ) (a0 a1 : ℤ) (h0 : a0 = 1 ∨ a0 = -1) (h1 : a1 = 1 ∨ a1 = -1) :
    dotCallShape [b, n] [b, n] a0 a1 = .ok [b] ∧ kerasDotShape [b, n] [b, n] a0 a1 = .ok [b, 1] := by
  have hk : ∀ a : ℤ, a = 1 ∨ a = -1 → normAxis [b, n].length a = some (0 + 1) := by
    rintro a (rfl | rfl) <;> rfl
  exact ⟨dotCallShape_eq b n [n] [n] a0 a1 0 0 (hk a0 h0) (hk a1 h1) (by simp) (by simp) rfl rfl,
    kerasDotShape_eq b [n] [n] a0 a1 0 0 (hk a0 h0) (hk a1 h1)⟩

/-- Non-vacuity of C98 (shapes): `(8, 2, 5)` and `(8, 3, 4, 5)` over the last axes; `(8, 5, 2)` and `(8, 5)` over axis 1; different
contracted sizes. -/
example : dotCallShape [8, 2, 5] [8, 3, 4, 5] (-1) (-1) = .ok [8, 2, 3, 4] ∧ kerasDotShape [8, 2, 5] [8, 3, 4, 5] (-1) (-1) = .ok [8, 2, 3, 4] ∧
    dotCallShape [8, 5, 2] [8, 5] 1 1 = .ok [8, 2] ∧ kerasDotShape [8, 5, 2] [8, 5] 1 1 = .ok [8, 2] ∧
    dotCallShape [8, 2, 5] [8, 3, 4] (-1) (-1) = .error .valueError := by
  decide +kernel

end Decomon
