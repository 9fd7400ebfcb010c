import Verif.Lemmas.Slack
import Verif.Props.Pooling

/-!
Property C133: maxima and minima of many inputs, maxima and minima along an axis and sorting, in every mode and without excluding any input: the
bounds are right up to an explicit multiple of `keras.config.epsilon()`.
-/

namespace Decomon

/-- The error of a maximum of `n + 1` inputs of error `s`, in units of `epsilon`. -/
def maxErr {α : Type*} [Field α] (n : ℕ) (s : α) : α := (2 * 3 ^ n - 1) * s + (3 ^ n - 1) / 8

/-- The error of the sort of `n` inputs of error `s`, in units of `epsilon`: `n (n - 1) / 2` exchanges. -/
def sortErr {α : Type*} [Field α] (n : ℕ) (s : α) : α := 5 ^ (n * (n - 1) / 2) * s + (5 ^ (n * (n - 1) / 2) - 1) / 16

section Grade
variable {β γ : Type*} {R : ℕ → β → γ → Prop} {mx mn : β → β → β} {mx' mn' : γ → γ → γ}

/-- A relation that loses one grade in every exchange. -/
theorem sortNet_grade (hmono : ∀ k a b, R k a b → R (k + 1) a b) (hmx : ∀ k a a' b b', R k a b → R k a' b' → R (k + 1) (mx a a') (mx' b b'))
    (hmn : ∀ k a a' b b', R k a b → R k a' b' → R (k + 1) (mn a a') (mn' b b')) (n : ℕ) (s : ℕ → β) (t : ℕ → γ)
    (h : ∀ i, R 0 (s i) (t i)) : ∀ i, R (n * (n - 1) / 2) (sortNet mx mn n s i) (sortNet mx' mn' n t i) := by
  have step : ∀ (k : ℕ) (s : ℕ → β) (t : ℕ → γ) ij, (∀ i, R k (s i) (t i)) →
      ∀ i, R (k + 1) (sortStep mx mn s ij i) (sortStep mx' mn' t ij i) := by
    intro k s t ij h i
    unfold sortStep
    by_cases h1 : i = ij.1
    · subst h1; simpa using hmn k _ _ _ _ (h _) (h _)
    · by_cases h2 : i = ij.2
      · subst h2; simpa [h1] using hmx k _ _ _ _ (h _) (h _)
      · simpa [h1, h2] using hmono k _ _ (h i)
  have inner : ∀ (l : List ℕ) i k (s : ℕ → β) (t : ℕ → γ), (∀ i, R k (s i) (t i)) →
      ∀ j, R (k + l.length) (l.foldl (fun s j => sortStep mx mn s (i, j)) s j) (l.foldl (fun s j => sortStep mx' mn' s (i, j)) t j) := by
    intro l i
    induction l with
    | nil => intro k s t h j; exact h j
    | cons a l ih =>
      intro k s t h j
      have := ih (k + 1) _ _ (step k s t (i, a) h) j
      rwa [List.length_cons, show k + (l.length + 1) = k + 1 + l.length by omega]
  have outer : ∀ (l : List ℕ) k (s : ℕ → β) (t : ℕ → γ), (∀ i, R k (s i) (t i)) →
      ∀ j, R (k + (l.map fun i => n - (i + 1)).sum) (l.foldl (fun s i => sortInner mx mn n i s) s j)
        (l.foldl (fun s i => sortInner mx' mn' n i s) t j) := by
    intro l
    induction l with
    | nil => intro k s t h j; exact h j
    | cons a l ih =>
      intro k s t h j
      have h1 := inner (List.range' (a + 1) (n - (a + 1))) a k s t h
      rw [List.length_range'] at h1
      have := ih _ _ _ h1 j
      rwa [List.map_cons, List.sum_cons, ← add_assoc]
  have hc : ((List.range (n - 1)).map fun i => n - (i + 1)).sum = n * (n - 1) / 2 := by
    have key : ∀ k, ((List.range k).map fun i => k + 1 - (i + 1)).sum = (k + 1) * k / 2 := by
      intro k
      have e : ∀ k, ((List.range k).map fun i => k + 1 - (i + 1)).sum * 2 = (k + 1) * k := by
        intro k
        induction k with
        | zero => rfl
        | succ k ih =>
          rw [List.range_succ_eq_map, List.map_cons, List.sum_cons, List.map_map]
          have : ((fun i => k + 1 + 1 - (i + 1)) ∘ Nat.succ) = fun i => k + 1 - (i + 1) := by funext i; simp
          rw [this, add_mul, ih]
          simp only [zero_add, Nat.add_sub_cancel]
          ring
      rw [← e k, Nat.mul_div_cancel _ (by norm_num)]
    cases n with
    | zero => rfl
    | succ k => exact key k
  have := outer (List.range (n - 1)) 0 s t h
  rw [hc, zero_add] at this
  exact this

end Grade

section
variable {X ι κ σ α : Type*} [Fintype ι] [Field α] [LinearOrder α] [IsStrictOrderedRing α] {n : ℕ}

theorem maxErr_nonneg (n : ℕ) (s : α) (hs : 0 ≤ s) : 0 ≤ maxErr n s := by
  have h : (1 : α) ≤ 3 ^ n := one_le_pow₀ (by norm_num)
  exact add_nonneg (mul_nonneg (by linarith) hs) (by linarith)

omit [LinearOrder α] [IsStrictOrderedRing α] in
theorem maxErr_zero (s : α) : maxErr 0 s = s := by
  unfold maxErr; ring

theorem maxErr_succ (n : ℕ) (s : α) : 3 * maxErr n s + 2 * s + 1 / 4 = maxErr (n + 1) s := by
  unfold maxErr
  field_simp
  ring

/-- The fold of the layers `Maximum` and `max_`. -/
theorem near_maximumLayer (D : PertDomain X ι α) (m : Mode) (eps : α) (he : 0 < eps) (S : Set (ι → α)) (p : ι → α) (hp : p ∈ S) (s : α)
    (hs : 0 ≤ s) (fs : List (Full X ι κ α)) (ys : List (κ → α))
    (h : List.Forall₂ (fun f y => D.Sound f.x S ∧ Near m f p y fun _ => eps * s) fs ys) (k : ℕ) (f0 : Full X ι κ α) (y0 : κ → α)
    (h0 : D.Sound f0.x S) (v0 : Near m f0 p y0 fun _ => eps * maxErr k s) :
    D.Sound (maximumLayerT D m eps f0 fs).x S ∧ Near m (maximumLayerT D m eps f0 fs) p (fun i => ys.foldl (fun a y => max a (y i)) (y0 i))
      fun _ => eps * maxErr (k + fs.length) s := by
  induction h generalizing k f0 y0 with
  | nil => exact ⟨h0, v0⟩
  | @cons f y fs ys hf _ ih =>
    have v := near_maximum D m eps he f0 f S h0 hf.1 p hp y0 y _ _ (fun _ => mul_nonneg he.le (maxErr_nonneg k s hs))
      (fun _ => mul_nonneg he.le hs) v0 hf.2
    have hx : D.Sound (maximumT D m false eps (fun _ => 1) f0 f).x S := by simpa [maximumT, addT, reluT, subtractT] using hf.1
    have := ih (k + 1) _ _ hx (v.congr (fun _ => rfl) fun _ => by rw [← maxErr_succ]; ring)
    rwa [show k + 1 + fs.length = k + (f :: fs).length by simp; omega] at this

/-- C133: the layer `Maximum` on any number of inputs, in every mode. -/
theorem C133_maximum (D : PertDomain X ι α) (m : Mode) (eps : α) (he : 0 < eps) (S : Set (ι → α)) (p : ι → α) (hp : p ∈ S) (s : α)
    (hs : 0 ≤ s) (f0 : Full X ι κ α) (fs : List (Full X ι κ α)) (y0 : κ → α) (ys : List (κ → α)) (h0 : D.Sound f0.x S)
    (v0 : Near m f0 p y0 fun _ => eps * s) (h : List.Forall₂ (fun f y => D.Sound f.x S ∧ Near m f p y fun _ => eps * s) fs ys) :
    Near m (maximumLayerT D m eps f0 fs) p (fun k => (ys.map fun y => y k).foldl max (y0 k)) fun _ => eps * maxErr fs.length s := by
  have := (near_maximumLayer D m eps he S p hp s hs fs ys h 0 f0 y0 h0 (v0.congr (fun _ => rfl) fun _ => by rw [maxErr_zero])).2
  refine this.congr (fun k => ?_) fun _ => by rw [zero_add]
  rw [List.foldl_map]

/-- C133: the layer `Minimum` on any number of inputs, in every mode. -/
theorem C133_minimum (D : PertDomain X ι α) (m : Mode) (eps : α) (he : 0 < eps) (S : Set (ι → α)) (p : ι → α) (hp : p ∈ S) (s : α)
    (hs : 0 ≤ s) (f0 : Full X ι κ α) (fs : List (Full X ι κ α)) (y0 : κ → α) (ys : List (κ → α)) (h0 : D.Sound f0.x S)
    (v0 : Near m f0 p y0 fun _ => eps * s) (h : List.Forall₂ (fun f y => D.Sound f.x S ∧ Near m f p y fun _ => eps * s) fs ys) :
    Near m (minimumLayerT D m eps f0 fs) p (fun k => (ys.map fun y => y k).foldl min (y0 k)) fun _ => eps * maxErr fs.length s := by
  have h' : List.Forall₂ (fun f y => D.Sound f.x S ∧ Near m f p y fun _ => eps * s) (fs.map (minusT D m))
      (ys.map fun y k => - y k) := by
    rw [List.forall₂_map_left_iff, List.forall₂_map_right_iff]
    exact h.imp fun f y hf => ⟨by simpa [minusT] using hf.1, near_minus D m f p y _ hf.2⟩
  have a := C133_maximum D m eps he S p hp s hs (minusT D m f0) _ (fun k => - y0 k) _ (by simpa [minusT] using h0)
    (near_minus D m f0 p y0 _ v0) h'
  have b : Near m (minusT D m (maximumLayerT D m eps (minusT D m f0) (fs.map (minusT D m)))) p
      (fun k => (ys.map fun y => y k).foldl min (y0 k)) fun _ => eps * maxErr fs.length s := by
    refine (near_minus D m _ p _ _ a).congr (fun k => ?_) fun _ => by rw [List.length_map]
    rw [← foldl_max_neg]
    simp [Function.comp_def]
  cases h with
  | nil => simpa [minimumLayerT, maxErr_zero] using v0
  | cons _ _ => exact b

/-- C133: the maximum along an axis, in every mode, with and without a difference-of-convex decomposition. -/
theorem C133_max (D : PertDomain X ι α) (m : Mode) (dc : Bool) (eps : α) (he : 0 < eps) (e : κ → Fin (n + 1) → σ) (f : Full X ι σ α)
    (S : Set (ι → α)) (hD : D.Sound f.x S) (p : ι → α) (hp : p ∈ S) (s : α) (hs : 0 ≤ s) (y : σ → α)
    (v : Near m f p y fun _ => eps * s) :
    Near m (maxReduceT D m dc eps e f) p (fun k => maxOver fun i => y (e k i)) fun _ => eps * maxErr n s := by
  unfold maxReduceT
  split
  · next h =>
    obtain ⟨rfl, rfl⟩ := h
    have h3 : (1 : α) ≤ 3 ^ n := one_le_pow₀ (by norm_num)
    have hle : eps * s ≤ eps * maxErr n s := by
      refine mul_le_mul_of_nonneg_left ?_ he.le
      unfold maxErr
      nlinarith [mul_nonneg (show (0 : α) ≤ 2 * 3 ^ n - 2 by linarith) hs]
    refine ⟨fun _ k => ⟨?_, ?_⟩, by simp [getAffine]⟩
    · have : (maxOver fun i => f.lc (e k i)) ≤ (maxOver fun i => y (e k i)) + eps * s :=
        maxOver_le fun i => by
          have h1 := (v.const rfl (e k i)).1
          have h2 := le_maxOver (fun i => y (e k i)) i
          linarith
      simp only
      linarith
    · have : (maxOver fun i => y (e k i)) ≤ (maxOver fun i => f.uc (e k i)) + eps * s :=
        maxOver_le fun i => by
          have h1 := (v.const rfl (e k i)).2
          have h2 := le_maxOver (fun i => f.uc (e k i)) i
          linarith
      simp only
      linarith
  · have hr : ∀ i, Near m (f.reindex fun k => e k i) p (fun k => y (e k i)) fun _ => eps * s := fun i =>
      ⟨fun hi k => v.const hi (e k i), fun ha k => v.aff ha (e k i)⟩
    have h2 : List.Forall₂ (fun f y => D.Sound f.x S ∧ Near m f p y fun _ => eps * s)
        (List.ofFn fun i : Fin n => f.reindex fun k => e k i.succ) (List.ofFn fun (i : Fin n) k => y (e k i.succ)) := by
      rw [List.forall₂_iff_get]
      refine ⟨by simp, fun i hi hi' => ?_⟩
      simp only [List.get_ofFn]
      exact ⟨hD, hr _⟩
    obtain ⟨a1, a2⟩ := near_maximumLayer D m eps he S p hp s hs _ _ h2 0 (f.reindex fun k => e k 0) (fun k => y (e k 0)) hD
      ((hr 0).congr (fun _ => rfl) fun _ => by rw [maxErr_zero])
    have b := (near_tighten D m true (m != .affine) _ S a1 p hp _ _ a2).1
    refine Near.congr (y := _) (s := _) ⟨b.const, b.aff⟩ (fun k => ?_) fun _ => by rw [zero_add, List.length_ofFn]
    rw [← List.foldl_map (f := fun y : κ → α => y k) (g := max), List.map_ofFn]
    exact (foldl_max_ofFn fun i => y (e k i)).symm

/-- C133: the minimum along an axis, in every mode. -/
theorem C133_min (D : PertDomain X ι α) (m : Mode) (eps : α) (he : 0 < eps) (e : κ → Fin (n + 1) → σ) (f : Full X ι σ α)
    (S : Set (ι → α)) (hD : D.Sound f.x S) (p : ι → α) (hp : p ∈ S) (s : α) (hs : 0 ≤ s) (y : σ → α)
    (v : Near m f p y fun _ => eps * s) :
    Near m (minReduceT D m eps e f) p (fun k => minOver fun i => y (e k i)) fun _ => eps * maxErr n s := by
  have a := C133_max D m false eps he e (minusT D m f) S (by simpa [minusT] using hD) p hp s hs _ (near_minus D m f p y _ v)
  refine (near_minus D m _ p _ _ a).congr (fun k => ?_) fun _ => rfl
  symm
  apply le_antisymm
  · refine le_minOver fun i => ?_
    have := le_maxOver (fun i => - y (e k i)) i
    linarith
  · obtain ⟨i, hi⟩ := exists_maxOver fun i => - y (e k i)
    rw [hi, neg_neg]
    exact minOver_le (fun i => y (e k i)) i

/-- C133: in every mode the bounds returned by `sort` at position `i` bound, up to the error, the `i`-th smallest value: `z` is an
increasing rearrangement of the values. -/
theorem C133_sort (D : PertDomain X ι α) (m : Mode) (eps : α) (he : 0 < eps) (n : ℕ) (fs : ℕ → Full X ι κ α) (S : Set (ι → α))
    (hD : ∀ i, D.Sound (fs i).x S) (p : ι → α) (hp : p ∈ S) (s : α) (hs : 0 ≤ s) (y : ℕ → κ → α)
    (v : ∀ i, Near m (fs i) p (y i) fun _ => eps * s) :
    ∃ z : ℕ → κ → α, (∀ i, Near m (sortT D m eps n fs i) p (z i) fun _ => eps * sortErr n s) ∧
      (∀ k a b, a < b → b < n → z a k ≤ z b k) ∧
      (∀ k, ∃ σ : Equiv.Perm ℕ, (∀ j, n ≤ j → σ j = j) ∧ ∀ i, z i k = y (σ i) k) := by
  let E : ℕ → α := fun k => 5 ^ k * s + (5 ^ k - 1) / 16
  have hE0 : ∀ k, 0 ≤ E k := fun k => by
    have h : (1 : α) ≤ 5 ^ k := one_le_pow₀ (by norm_num)
    exact add_nonneg (mul_nonneg (by linarith) hs) (by linarith)
  have hE : ∀ k, E (k + 1) = 5 * E k + 1 / 4 := fun k => by simp only [E]; ring
  have hmono : ∀ k, eps * E k ≤ eps * E (k + 1) := fun k => mul_le_mul_of_nonneg_left (by rw [hE]; linarith [hE0 k]) he.le
  have hx : ∀ f : Full X ι κ α, (minusT D m f).x = f.x := fun f => by simp [minusT]
  have hmx : ∀ k (a a' : Full X ι κ α) b b', D.Sound a.x S ∧ Near m a p b (fun _ => eps * E k) →
      D.Sound a'.x S ∧ Near m a' p b' (fun _ => eps * E k) →
      D.Sound (maximumT D m false eps (fun _ => 1) a a').x S ∧
        Near m (maximumT D m false eps (fun _ => 1) a a') p (fun k => max (b k) (b' k)) (fun _ => eps * E (k + 1)) := by
    intro k a a' b b' ha hb
    refine ⟨by rw [maximumT_x]; exact hb.1, ?_⟩
    refine (near_maximum D m eps he a a' S ha.1 hb.1 p hp b b' _ _ (fun _ => mul_nonneg he.le (hE0 k))
      (fun _ => mul_nonneg he.le (hE0 k)) ha.2 hb.2).congr (fun _ => rfl) fun _ => ?_
    rw [hE]; ring
  have hmn : ∀ k (a a' : Full X ι κ α) b b', D.Sound a.x S ∧ Near m a p b (fun _ => eps * E k) →
      D.Sound a'.x S ∧ Near m a' p b' (fun _ => eps * E k) →
      D.Sound (minimumT D m false eps (fun _ => 1) a a').x S ∧
        Near m (minimumT D m false eps (fun _ => 1) a a') p (fun k => min (b k) (b' k)) (fun _ => eps * E (k + 1)) := by
    intro k a a' b b' ha hb
    have h := hmx k (minusT D m a) (minusT D m a') _ _ ⟨by rw [hx]; exact ha.1, near_minus D m a p b _ ha.2⟩
      ⟨by rw [hx]; exact hb.1, near_minus D m a' p b' _ hb.2⟩
    refine ⟨by unfold minimumT; rw [hx]; exact h.1, ?_⟩
    refine (near_minus D m _ p _ _ h.2).congr (fun k => ?_) fun _ => rfl
    rw [max_neg_neg, neg_neg]
  have ht : ∀ (f : Full X ι κ α) b t, D.Sound f.x S ∧ Near m f p b t →
      D.Sound (f.tighten D m true true).x S ∧ Near m (f.tighten D m true true) p b t := fun f b t h =>
    ⟨by simpa using h.1, (near_tighten D m true true f S h.1 p hp b t h.2).1⟩
  have h1 := sortNet_grade (R := fun k (f : Full X ι κ α) (y : κ → α) => D.Sound f.x S ∧ Near m f p y fun _ => eps * E k)
    (mx := fun a b => (maximumT D m false eps (fun _ => 1) a b).tighten D m true true)
    (mn := fun a b => (minimumT D m false eps (fun _ => 1) a b).tighten D m true true)
    (mx' := fun a b k => max (a k) (b k)) (mn' := fun a b k => min (a k) (b k))
    (fun k a b h => ⟨h.1, fun hi j => ⟨by linarith [(h.2.const hi j).1, hmono k], by linarith [(h.2.const hi j).2, hmono k]⟩,
      fun ha j => ⟨by linarith [(h.2.aff ha j).1, hmono k], by linarith [(h.2.aff ha j).2, hmono k]⟩⟩)
    (fun k a a' b b' ha hb => ht _ _ _ (hmx k a a' b b' ha hb)) (fun k a a' b b' ha hb => ht _ _ _ (hmn k a a' b b' ha hb))
    n fs y (fun i => ⟨hD i, (v i).congr (fun _ => rfl) fun _ => by simp [E]⟩)
  have h2 := fun k => sortNet_rel (R := fun (y : κ → α) (c : α) => y k = c)
    (mx := fun a b k => max (a k) (b k)) (mn := fun a b k => min (a k) (b k)) (mx' := max) (mn' := min)
    (fun a a' b b' ha hb => by simp [ha, hb]) (fun a a' b b' ha hb => by simp [ha, hb]) n y (fun i => y i k) (fun i => rfl)
  refine ⟨sortNet (fun a b k => max (a k) (b k)) (fun a b k => min (a k) (b k)) n y, fun i => (h1 i).2, fun k a b hab hb => ?_,
    fun k => ?_⟩
  · rw [h2 k a, h2 k b]; exact (sortNet_spec n _).1 a b hab hb
  · obtain ⟨σ, s1, s2⟩ := (sortNet_spec n (fun i => y i k)).2
    exact ⟨σ, s1, fun i => by rw [h2 k i, s2]; rfl⟩

end

/-! ### Concrete cases -/

/-- Non-vacuity of C133 (sort): the three values `x, -x, x` for `x ∈ [-1, 1]`, in affine mode; the error is `(125 - 1) / 16` times `1 / 10`. -/
example (p : Fin 1 → ℚ) (hp : p ∈ Box (fun _ : Fin 1 => (-1 : ℚ)) (fun _ => 1)) :
    ∃ z : ℕ → Fin 1 → ℚ, (∀ i, Near .affine (sortT boxDomain .affine (1 / 10) 3
        (fun i => if i = 1 then minusT boxDomain .affine (oneInput (-1) 1) else oneInput (-1) 1) i) p (z i) fun _ => 31 / 40) ∧
      z 0 0 ≤ z 1 0 ∧ z 1 0 ≤ z 2 0 := by
  have v := near_of_valid .affine _ p p (oneInput_valid .affine (-1) 1 p hp)
  obtain ⟨z, h1, h2, -⟩ := C133_sort boxDomain .affine (1 / 10) (by norm_num) 3
    (fun i => if i = 1 then minusT boxDomain .affine (oneInput (-1) 1) else oneInput (-1) 1) (Box (fun _ => -1) (fun _ => 1))
    (fun i => by
      by_cases h : i = 1
      · simp only [h, if_true]; simpa [minusT, oneInput] using boxDomain_sound _ _
      · simp only [h, if_false]; exact boxDomain_sound _ _) p hp 0 le_rfl (fun i => if i = 1 then fun k => - p k else p)
    (fun i => by
      by_cases h : i = 1
      · simp only [h, if_true]; exact (near_minus boxDomain .affine _ p p _ v).congr (fun _ => rfl) fun _ => by simp
      · simp only [h, if_false]; exact v.congr (fun _ => rfl) fun _ => by simp)
  exact ⟨z, fun i => (h1 i).congr (fun _ => rfl) fun _ => by norm_num [sortErr], h2 0 0 1 (by norm_num) (by norm_num),
    h2 0 1 2 (by norm_num) (by norm_num)⟩

/-- Non-vacuity of C133 (maximum and minimum along an axis): three copies of `x ∈ [-1, 1]` in hybrid mode. -/
example (p : Fin 1 → ℚ) (hp : p ∈ Box (fun _ : Fin 1 => (-1 : ℚ)) (fun _ => 1)) :
    Near .hybrid (maxReduceT boxDomain .hybrid false (1 / 10) (fun (_ : Fin 1) (_ : Fin 3) => (0 : Fin 1)) (oneInput (-1) 1)) p
      (fun _ => maxOver fun _ : Fin 3 => p 0) (fun _ => 1 / 10) ∧
    Near .hybrid (minReduceT boxDomain .hybrid (1 / 10) (fun (_ : Fin 1) (_ : Fin 3) => (0 : Fin 1)) (oneInput (-1) 1)) p
      (fun _ => minOver fun _ : Fin 3 => p 0) (fun _ => 1 / 10) := by
  have v : Near .hybrid (oneInput (-1) 1) p p fun _ => 1 / 10 * 0 :=
    (near_of_valid .hybrid _ p p (oneInput_valid .hybrid (-1) 1 p hp)).congr (fun _ => rfl) fun _ => by simp
  have e : (1 / 10 : ℚ) = 1 / 10 * maxErr 2 0 := by norm_num [maxErr]
  have hS := boxDomain_sound (α := ℚ) (fun _ : Fin 1 => -1) (fun _ => 1)
  have h1 := C133_max (n := 2) boxDomain .hybrid false (1 / 10) (by norm_num) (fun (_ : Fin 1) _ => (0 : Fin 1)) (oneInput (-1) 1) _ hS
    p hp 0 le_rfl p v
  have h2 := C133_min (n := 2) boxDomain .hybrid (1 / 10) (by norm_num) (fun (_ : Fin 1) _ => (0 : Fin 1)) (oneInput (-1) 1) _ hS
    p hp 0 le_rfl p v
  rw [← e] at h1 h2
  exact ⟨h1, h2⟩

/-- Non-vacuity of C133 (merge layers): `Maximum` and `Minimum` of `x, -x, x` in hybrid mode. -/
example (p : Fin 1 → ℚ) (hp : p ∈ Box (fun _ : Fin 1 => (-1 : ℚ)) (fun _ => 1)) :
    Near .hybrid (maximumLayerT boxDomain .hybrid (1 / 10) (oneInput (-1) 1) [minusT boxDomain .hybrid (oneInput (-1) 1), oneInput (-1) 1])
      p (fun k => max (max (p k) (- p k)) (p k)) (fun _ => 1 / 10) ∧
    Near .hybrid (minimumLayerT boxDomain .hybrid (1 / 10) (oneInput (-1) 1) [minusT boxDomain .hybrid (oneInput (-1) 1), oneInput (-1) 1])
      p (fun k => min (min (p k) (- p k)) (p k)) (fun _ => 1 / 10) := by
  have v : Near .hybrid (oneInput (-1) 1) p p fun _ => 1 / 10 * 0 :=
    (near_of_valid .hybrid _ p p (oneInput_valid .hybrid (-1) 1 p hp)).congr (fun _ => rfl) fun _ => by simp
  have hS := boxDomain_sound (α := ℚ) (fun _ : Fin 1 => -1) (fun _ => 1)
  have h : List.Forall₂ (fun f y => boxDomain.Sound f.x (Box (fun _ : Fin 1 => (-1 : ℚ)) fun _ => 1) ∧
      Near .hybrid f p y fun _ => 1 / 10 * (0 : ℚ)) [minusT boxDomain .hybrid (oneInput (-1) 1), oneInput (-1) 1]
      [fun k => - p k, p] :=
    .cons ⟨by simpa [minusT, oneInput] using hS, near_minus boxDomain .hybrid _ p p _ v⟩ (.cons ⟨hS, v⟩ .nil)
  exact ⟨(C133_maximum boxDomain .hybrid (1 / 10) (by norm_num) _ p hp 0 le_rfl (oneInput (-1) 1) _ p _ hS v h).congr (fun _ => rfl)
      fun _ => by norm_num [maxErr],
    (C133_minimum boxDomain .hybrid (1 / 10) (by norm_num) _ p hp 0 le_rfl (oneInput (-1) 1) _ p _ hS v h).congr (fun _ => rfl)
      fun _ => by norm_num [maxErr]⟩

end Decomon
