import Verif.Props.Network

/-! Theorems about merge layers: C88 (order of the inputs), C89 (precision of the constant bounds). -/

namespace Decomon

/-! ### C88: the order of the inputs -/

section
variable {X ι κ α : Type} [Field α] [LinearOrder α] [IsStrictOrderedRing α]

/-- Two tensors with the same bounds. -/
structure SameBounds (f g : Full X ι κ α) : Prop where
  uc : f.uc = g.uc
  lc : f.lc = g.lc
  wu : f.wu = g.wu
  bu : f.bu = g.bu
  wl : f.wl = g.wl
  bl : f.bl = g.bl

omit [IsStrictOrderedRing α] in
/-- C88: the bounds of `Add` and `Average` do not depend on the order of the inputs, in every mode and for any number of inputs.
Missing with respect to the full claim: `Maximum`, `Minimum` and the upper affine bounds of `Multiply`, refuted below. -/
theorem C88_add_average_partial (D : PertDomain X ι α) (m : Mode) (f0 g0 : Full X ι κ α) (fs gs : List (Full X ι κ α))
    (h : (f0 :: fs).Perm (g0 :: gs)) :
    SameBounds (addLayerT D m f0 fs) (addLayerT D m g0 gs) ∧ SameBounds (averageLayerT D m f0 fs) (averageLayerT D m g0 gs) := by
  have key : ∀ v : Full X ι κ α → α, (((f0 :: fs).map fun f => f.tighten D m false true).map v).sum =
      (((g0 :: gs).map fun f => f.tighten D m false true).map v).sum := fun v => ((h.map _).map v).sum_eq
  have hlen : (f0 :: fs).length = (g0 :: gs).length := h.length_eq
  constructor
  · constructor <;> funext <;> simp only [addLayerT, key]
  · constructor <;> funext <;> simp only [averageLayerT, key, hlen]

/-- C88: `Multiply` of two inputs: the constant bounds and the lower affine bound do not depend on the order of the inputs. -/
theorem C88_multiply_partial (D : PertDomain X ι α) (m : Mode) (f g : Full X ι κ α) :
    (multiplyT D m f g).uc = (multiplyT D m g f).uc ∧ (multiplyT D m f g).lc = (multiplyT D m g f).lc ∧
    (multiplyT D m f g).wl = (multiplyT D m g f).wl ∧ (multiplyT D m f g).bl = (multiplyT D m g f).bl := by
  refine ⟨?_, ?_, ?_, ?_⟩ <;> funext <;> simp only [multiplyT] <;> split <;> try rfl
  · rw [min_comm]
  · rw [mul_comm ((g.tighten D m true true).lc _) ((f.tighten D m true true).lc _),
      mul_comm ((g.tighten D m true true).uc _) ((f.tighten D m true true).lc _),
      mul_comm ((g.tighten D m true true).lc _) ((f.tighten D m true true).uc _)]
    ring
  · ring
  · ring

end

/-- A network with two inputs that keeps the first, resp. the second. -/
def firstIn : Net ℚ (Fin 2) (Fin 1) := .layer .input (.reshape fun _ => 0)
/-- See `firstIn`. -/
def secondIn : Net ℚ (Fin 2) (Fin 1) := .layer .input (.reshape fun _ => 1)

/-- The constant upper bound, in mode `m`, of a network on `[0, 1] × [5, 6]`. -/
def upperOn (m : Mode) (N : Net ℚ (Fin 2) (Fin 1)) : ℚ :=
  (N.forward boxDomain m (1 / 10000000) .vSlope (inputTensorsBox m ![0, 5] ![1, 6])).uc 0

/-- C88: `Maximum` refuted in ibp mode: the maximum of `a ∈ [0, 1]` and `b ∈ [5, 6]` is at most 7, the maximum of `b` and `a` at most 6. -/
theorem C88_maximum_refuted : upperOn .ibp (.merge .maximum firstIn secondIn) = 7 ∧ upperOn .ibp (.merge .maximum secondIn firstIn) = 6 := by
  constructor <;> decide +kernel

/-- C88: `Minimum` refuted in the same way: at least 0 for `a, b`, at least -1 for `b, a`. -/
theorem C88_minimum_refuted :
    ((Net.merge .minimum firstIn secondIn).forward boxDomain .ibp (1 / 10000000) .vSlope (inputTensorsBox .ibp ![0, 5] ![1, 6])).lc 0 = 0 ∧
    ((Net.merge .minimum secondIn firstIn).forward boxDomain .ibp (1 / 10000000) .vSlope (inputTensorsBox .ibp ![0, 5] ![1, 6])).lc 0 = -1 := by
  constructor <;> decide +kernel

/-- `x ↦ 2 x`. -/
def twice : Net ℚ (Fin 1) (Fin 1) := .layer .input (.dense (fun _ _ => 2) fun _ => 0)

/-- C88: `Maximum` refuted in affine and hybrid mode: the lower affine bound of `max (x, 2 x)` on `[-1, 1]` is `x`, that of
`max (2 x, x)` is `2 x`. -/
theorem C88_maximum_affine_refuted (m : Mode) (hm : m = .affine ∨ m = .hybrid) :
    ((Net.merge .maximum .input twice).forward boxDomain m (1 / 10000000) .vSlope (inputTensorsBox m (fun _ => -1) fun _ => 1)).wl 0 0 = 1 ∧
    ((Net.merge .maximum twice .input).forward boxDomain m (1 / 10000000) .vSlope (inputTensorsBox m (fun _ => -1) fun _ => 1)).wl 0 0 = 2 := by
  rcases hm with rfl | rfl <;> constructor <;> decide +kernel

/-- C88: the upper affine bound of `Multiply` refuted: on `[0, 1] × [5, 6]` the upper bound of `a b` is `5 a + b - 5`, that of `b a` is
`6 a`. -/
theorem C88_multiply_upper_refuted (m : Mode) (hm : m = .affine ∨ m = .hybrid) :
    ((Net.merge .multiply firstIn secondIn).forward boxDomain m (1 / 10000000) .vSlope (inputTensorsBox m ![0, 5] ![1, 6])).wu 0 0 = 5 ∧
    ((Net.merge .multiply secondIn firstIn).forward boxDomain m (1 / 10000000) .vSlope (inputTensorsBox m ![0, 5] ![1, 6])).wu 0 0 = 6 := by
  rcases hm with rfl | rfl <;> constructor <;> decide +kernel

/-- C88: three inputs: `Multiply` also depends on the order for constant bounds: the product of `[-2, 1]`, `[-2, 1]` and `[-1, 2]`. -/
theorem C88_multiply_three_refuted : ∃ f g h : Full Unit Unit Unit ℚ,
    (multiplyLayerT ⟨fun _ _ _ => 0, fun _ _ _ => 0⟩ .ibp f [g, h]).uc () ≠ (multiplyLayerT ⟨fun _ _ _ => 0, fun _ _ _ => 0⟩ .ibp h [f, g]).uc () := by
  refine ⟨⟨(), fun _ => 1, fun _ _ => 0, fun _ => 0, fun _ => -2, fun _ _ => 0, fun _ => 0, fun _ => 0, fun _ => 0⟩,
    ⟨(), fun _ => 1, fun _ _ => 0, fun _ => 0, fun _ => -2, fun _ _ => 0, fun _ => 0, fun _ => 0, fun _ => 0⟩,
    ⟨(), fun _ => 2, fun _ _ => 0, fun _ => 0, fun _ => -1, fun _ _ => 0, fun _ => 0, fun _ => 0, fun _ => 0⟩, by decide +kernel⟩

/-- C88 for `x0` and `x1` on `[0, 1] × [5, 6]`, in both orders. -/
example (m : Mode) :
    let f := firstIn.forward boxDomain m (1 / 10000000) .vSlope (inputTensorsBox m ![0, 5] ![1, 6])
    let g := secondIn.forward boxDomain m (1 / 10000000) .vSlope (inputTensorsBox m ![0, 5] ![1, 6])
    SameBounds (addLayerT boxDomain m f [g]) (addLayerT boxDomain m g [f]) ∧ (multiplyT boxDomain m f g).uc = (multiplyT boxDomain m g f).uc :=
  ⟨(C88_add_average_partial boxDomain m _ _ _ _ (List.Perm.swap _ _ _)).1, (C88_multiply_partial boxDomain m _ _).1⟩

/-- C88 on an example: `a + b` in two orders. -/
example : List.Perm [firstIn.forward boxDomain .hybrid (1 / 10000000) .vSlope (inputTensorsBox .hybrid ![0, 5] ![1, 6]),
      secondIn.forward boxDomain .hybrid (1 / 10000000) .vSlope (inputTensorsBox .hybrid ![0, 5] ![1, 6])]
    [secondIn.forward boxDomain .hybrid (1 / 10000000) .vSlope (inputTensorsBox .hybrid ![0, 5] ![1, 6]),
      firstIn.forward boxDomain .hybrid (1 / 10000000) .vSlope (inputTensorsBox .hybrid ![0, 5] ![1, 6])] := List.Perm.swap _ _ _

/-! ### C89: precision of the constant bounds of one operation -/

section Exact
variable {X ι κ α : Type} [Field α] [LinearOrder α] [IsStrictOrderedRing α]

/-- The values of `op a b` for `a` and `b` in two intervals. -/
def Range2 (op : α → α → α) (l0 u0 l1 u1 : α) : Set α := {v | ∃ a b, (l0 ≤ a ∧ a ≤ u0) ∧ (l1 ≤ b ∧ b ≤ u1) ∧ v = op a b}

/-- The values of `F a` for `a` in an interval. -/
def Range1 (F : α → α) (l u : α) : Set α := {v | ∃ a, (l ≤ a ∧ a ≤ u) ∧ v = F a}

/-- C89: the constant bounds of ReLU, `Add` and `Subtract` in ibp mode are the smallest and largest values of the operation on the input
intervals.  Missing with respect to the full claim: `Maximum`, `Minimum` and `Multiply`, characterised below. -/
theorem C89_exact_partial (D : PertDomain X ι α) (eps : α) (s : Slope) (gm : κ → α) (f g : Full X ι κ α) (k : κ) (hf : f.lc k ≤ f.uc k)
    (hg : g.lc k ≤ g.uc k) :
    (IsGreatest (Range1 (fun a => max a 0) (f.lc k) (f.uc k)) ((reluT D .ibp false eps s gm f).uc k) ∧
      IsLeast (Range1 (fun a => max a 0) (f.lc k) (f.uc k)) ((reluT D .ibp false eps s gm f).lc k)) ∧
    (IsGreatest (Range2 (· + ·) (f.lc k) (f.uc k) (g.lc k) (g.uc k)) ((addT D .ibp f g).uc k) ∧
      IsLeast (Range2 (· + ·) (f.lc k) (f.uc k) (g.lc k) (g.uc k)) ((addT D .ibp f g).lc k)) ∧
    (IsGreatest (Range2 (· - ·) (f.lc k) (f.uc k) (g.lc k) (g.uc k)) ((subtractT D .ibp f g).uc k) ∧
      IsLeast (Range2 (· - ·) (f.lc k) (f.uc k) (g.lc k) (g.uc k)) ((subtractT D .ibp f g).lc k)) := by
  have ht : ∀ (c t : Bool) (f : Full X ι κ α), f.tighten D .ibp c t = f := fun c t f => by simp [Full.tighten]
  simp only [reluT, addT, subtractT, minusT, ht, show getIbp .ibp = true from rfl, if_true]
  refine ⟨⟨⟨⟨f.uc k, ⟨hf, le_rfl⟩, rfl⟩, ?_⟩, ⟨f.lc k, ⟨le_rfl, hf⟩, rfl⟩, ?_⟩, ⟨⟨⟨f.uc k, g.uc k, ⟨hf, le_rfl⟩, ⟨hg, le_rfl⟩, rfl⟩, ?_⟩,
    ⟨f.lc k, g.lc k, ⟨le_rfl, hf⟩, ⟨le_rfl, hg⟩, rfl⟩, ?_⟩, ⟨⟨f.uc k, g.lc k, ⟨hf, le_rfl⟩, ⟨le_rfl, hg⟩, ?_⟩, ?_⟩,
    ⟨f.lc k, g.uc k, ⟨le_rfl, hf⟩, ⟨hg, le_rfl⟩, ?_⟩, ?_⟩
  · rintro v ⟨a, ⟨h1, h2⟩, rfl⟩; exact max_le_max_right _ h2
  · rintro v ⟨a, ⟨h1, h2⟩, rfl⟩; exact max_le_max_right _ h1
  · rintro v ⟨a, b, ⟨h1, h2⟩, ⟨h3, h4⟩, rfl⟩; exact add_le_add h2 h4
  · rintro v ⟨a, b, ⟨h1, h2⟩, ⟨h3, h4⟩, rfl⟩; exact add_le_add h1 h3
  · ring
  · rintro v ⟨a, b, ⟨h1, h2⟩, ⟨h3, h4⟩, rfl⟩; dsimp only; linarith
  · ring
  · rintro v ⟨a, b, ⟨h1, h2⟩, ⟨h3, h4⟩, rfl⟩; dsimp only; linarith

theorem maximum_ibp (D : PertDomain X ι α) (eps : α) (gm : κ → α) (f g : Full X ι κ α) (k : κ) :
    (maximumT D .ibp false eps gm f g).uc k = max (g.uc k - f.lc k) 0 + f.uc k ∧
    (maximumT D .ibp false eps gm f g).lc k = max (g.lc k - f.uc k) 0 + f.lc k := by
  have ht : ∀ (c t : Bool) (f : Full X ι κ α), f.tighten D .ibp c t = f := fun c t f => by simp [Full.tighten]
  simp only [maximumT, reluT, addT, subtractT, minusT, ht, show getIbp .ibp = true from rfl, if_true, relu, ← sub_eq_add_neg, and_self]

/-- C89: `Maximum` in ibp mode: the upper bound is the largest value exactly when the first input is a single value or is never below the
second one. -/
theorem C89_maximum_upper_iff (D : PertDomain X ι α) (eps : α) (gm : κ → α) (f g : Full X ι κ α) (k : κ) (hf : f.lc k ≤ f.uc k)
    (hg : g.lc k ≤ g.uc k) :
    IsGreatest (Range2 max (f.lc k) (f.uc k) (g.lc k) (g.uc k)) ((maximumT D .ibp false eps gm f g).uc k) ↔
      f.lc k = f.uc k ∨ g.uc k ≤ f.lc k := by
  rw [(maximum_ibp D eps gm f g k).1]
  have hmax : IsGreatest (Range2 max (f.lc k) (f.uc k) (g.lc k) (g.uc k)) (max (f.uc k) (g.uc k)) :=
    ⟨⟨f.uc k, g.uc k, ⟨hf, le_rfl⟩, ⟨hg, le_rfl⟩, rfl⟩, by rintro v ⟨a, b, ⟨h1, h2⟩, ⟨h3, h4⟩, rfl⟩; exact max_le_max h2 h4⟩
  have e : IsGreatest (Range2 max (f.lc k) (f.uc k) (g.lc k) (g.uc k)) (max (g.uc k - f.lc k) 0 + f.uc k) ↔
      max (g.uc k - f.lc k) 0 + f.uc k = max (f.uc k) (g.uc k) := ⟨fun h => h.unique hmax, fun h => h ▸ hmax⟩
  rw [e]
  constructor
  · intro h
    by_contra hc
    push Not at hc
    have h1 : f.lc k < f.uc k := lt_of_le_of_ne hf hc.1
    rw [max_eq_left (by linarith [hc.2] : (0 : α) ≤ g.uc k - f.lc k)] at h
    rcases max_cases (f.uc k) (g.uc k) with ⟨e, _⟩ | ⟨e, _⟩ <;> rw [e] at h <;> linarith [hc.2]
  · rintro (h | h)
    · rw [h]
      rcases le_total (f.uc k) (g.uc k) with h1 | h1
      · rw [max_eq_right h1, max_eq_left (sub_nonneg.2 h1)]; ring
      · rw [max_eq_left h1, max_eq_right (sub_nonpos.2 h1)]; ring
    · rw [max_eq_right (sub_nonpos.2 h), max_eq_left (h.trans hf), zero_add]

/-- C89: `Maximum` in ibp mode: the lower bound is the smallest value exactly when the first input is a single value or its lower bound
is the larger one. -/
theorem C89_maximum_lower_iff (D : PertDomain X ι α) (eps : α) (gm : κ → α) (f g : Full X ι κ α) (k : κ) (hf : f.lc k ≤ f.uc k)
    (hg : g.lc k ≤ g.uc k) :
    IsLeast (Range2 max (f.lc k) (f.uc k) (g.lc k) (g.uc k)) ((maximumT D .ibp false eps gm f g).lc k) ↔
      f.lc k = f.uc k ∨ g.lc k ≤ f.lc k := by
  rw [(maximum_ibp D eps gm f g k).2]
  have hmin : IsLeast (Range2 max (f.lc k) (f.uc k) (g.lc k) (g.uc k)) (max (f.lc k) (g.lc k)) :=
    ⟨⟨f.lc k, g.lc k, ⟨le_rfl, hf⟩, ⟨le_rfl, hg⟩, rfl⟩, by rintro v ⟨a, b, ⟨h1, h2⟩, ⟨h3, h4⟩, rfl⟩; exact max_le_max h1 h3⟩
  have e : IsLeast (Range2 max (f.lc k) (f.uc k) (g.lc k) (g.uc k)) (max (g.lc k - f.uc k) 0 + f.lc k) ↔
      max (g.lc k - f.uc k) 0 + f.lc k = max (f.lc k) (g.lc k) := ⟨fun h => h.unique hmin, fun h => h ▸ hmin⟩
  rw [e]
  constructor
  · intro h
    by_contra hc
    push Not at hc
    have h1 : f.lc k < f.uc k := lt_of_le_of_ne hf hc.1
    rw [max_eq_right hc.2.le] at h
    rcases max_cases (g.lc k - f.uc k) 0 with ⟨e, _⟩ | ⟨e, _⟩ <;> rw [e] at h <;> linarith [hc.2]
  · rintro (h | h)
    · rw [h]
      rcases le_total (f.uc k) (g.lc k) with h1 | h1
      · rw [max_eq_right h1, max_eq_left (sub_nonneg.2 h1)]; ring
      · rw [max_eq_left h1, max_eq_right (sub_nonpos.2 h1)]; ring
    · rw [max_eq_right (by linarith : g.lc k - f.uc k ≤ 0), max_eq_left h, zero_add]

theorem multiply_ibp (D : PertDomain X ι α) (f g : Full X ι κ α) (k : κ) :
    (multiplyT D .ibp f g).uc k =
      min (max (f.uc k * g.uc k) (f.uc k * g.lc k) + max (f.uc k * g.lc k) (f.lc k * g.lc k) - f.uc k * g.lc k)
        (max (g.uc k * f.uc k) (g.uc k * f.lc k) + max (g.uc k * f.lc k) (g.lc k * f.lc k) - g.uc k * f.lc k) ∧
    (multiplyT D .ibp f g).lc k =
      min (f.lc k * g.lc k) (f.lc k * g.uc k) + min (f.lc k * g.lc k) (f.uc k * g.lc k) - f.lc k * g.lc k := by
  have ht : ∀ (c t : Bool) (f : Full X ι κ α), f.tighten D .ibp c t = f := fun c t f => by simp [Full.tighten]
  simp only [multiplyT, ht, show getIbp .ibp = true from rfl, if_true, and_self]

/-- One McCormick plane is exact unless `0 < u0` and `l1 < 0`. -/
theorem mcc_upper_attained (l0 u0 l1 u1 : α) (h0 : l0 ≤ u0) (h1 : l1 ≤ u1) (h : u0 ≤ 0 ∨ 0 ≤ l1) :
    max (u0 * u1) (u0 * l1) + max (u0 * l1) (l0 * l1) - u0 * l1 ∈ Range2 (· * ·) l0 u0 l1 u1 := by
  rcases h with h | h
  · rw [max_eq_right (mul_le_mul_of_nonpos_left h1 h)]
    rcases le_total (l0 * l1) (u0 * l1) with h2 | h2
    · rw [max_eq_left h2]; exact ⟨u0, l1, ⟨h0, le_rfl⟩, ⟨le_rfl, h1⟩, by ring⟩
    · rw [max_eq_right h2]; exact ⟨l0, l1, ⟨le_rfl, h0⟩, ⟨le_rfl, h1⟩, by ring⟩
  · rw [max_eq_left (mul_le_mul_of_nonneg_right h0 h)]
    rcases le_total (u0 * l1) (u0 * u1) with h2 | h2
    · rw [max_eq_left h2]; exact ⟨u0, u1, ⟨h0, le_rfl⟩, ⟨h1, le_rfl⟩, by ring⟩
    · rw [max_eq_right h2]; exact ⟨u0, l1, ⟨h0, le_rfl⟩, ⟨le_rfl, h1⟩, by ring⟩

/-- Both McCormick planes are above the product. -/
theorem mcc_upper_bound (l0 u0 l1 u1 : α) (v : α) (hv : v ∈ Range2 (· * ·) l0 u0 l1 u1) :
    v ≤ max (u0 * u1) (u0 * l1) + max (u0 * l1) (l0 * l1) - u0 * l1 := by
  obtain ⟨a, b, ⟨h1, h2⟩, ⟨h3, h4⟩, rfl⟩ := hv
  have e1 : u0 * b ≤ max (u0 * u1) (u0 * l1) := by
    rcases le_total 0 u0 with h | h
    · exact (mul_le_mul_of_nonneg_left h4 h).trans (le_max_left _ _)
    · exact (mul_le_mul_of_nonpos_left h3 h).trans (le_max_right _ _)
  have e2 : a * l1 ≤ max (u0 * l1) (l0 * l1) := by
    rcases le_total 0 l1 with h | h
    · exact (mul_le_mul_of_nonneg_right h2 h).trans (le_max_left _ _)
    · exact (mul_le_mul_of_nonpos_right h1 h).trans (le_max_right _ _)
  dsimp only
  nlinarith [mul_nonneg (sub_nonneg.2 h2) (sub_nonneg.2 h3)]

theorem range2_mul_comm (l0 u0 l1 u1 : α) : Range2 (· * ·) l1 u1 l0 u0 = Range2 (· * ·) l0 u0 l1 u1 := by
  ext v
  constructor <;> rintro ⟨a, b, h1, h2, rfl⟩ <;> exact ⟨b, a, h2, h1, mul_comm _ _⟩

/-- C89: `Multiply` in ibp mode: the upper bound is the largest product exactly when at least one of the two inputs has a constant sign. -/
theorem C89_multiply_upper_iff (D : PertDomain X ι α) (f g : Full X ι κ α) (k : κ) (hf : f.lc k ≤ f.uc k) (hg : g.lc k ≤ g.uc k) :
    IsGreatest (Range2 (· * ·) (f.lc k) (f.uc k) (g.lc k) (g.uc k)) ((multiplyT D .ibp f g).uc k) ↔
      ¬ ((f.lc k < 0 ∧ 0 < f.uc k) ∧ g.lc k < 0 ∧ 0 < g.uc k) := by
  rw [(multiply_ibp D f g k).1]
  generalize f.lc k = l0 at *
  generalize f.uc k = u0 at *
  generalize g.lc k = l1 at *
  generalize g.uc k = u1 at *
  have b1 := fun v hv => mcc_upper_bound l0 u0 l1 u1 v hv
  have b2 := fun v hv => mcc_upper_bound l1 u1 l0 u0 v (by rw [range2_mul_comm]; exact hv)
  constructor
  · rintro ⟨⟨a, b, ⟨h1, h2⟩, ⟨h3, h4⟩, e⟩, -⟩ ⟨⟨n0, p0⟩, n1, p1⟩
    -- the value would be a product
    have c1 : max (u0 * u1) (u0 * l1) = u0 * u1 := max_eq_left (mul_le_mul_of_nonneg_left hg p0.le)
    have c2 : max (u0 * l1) (l0 * l1) = l0 * l1 := max_eq_right (mul_le_mul_of_nonpos_right hf n1.le)
    have c3 : max (u1 * u0) (u1 * l0) = u1 * u0 := max_eq_left (mul_le_mul_of_nonneg_left hf p1.le)
    have c4 : max (u1 * l0) (l1 * l0) = l1 * l0 := max_eq_right (mul_le_mul_of_nonpos_right hg n0.le)
    rw [c1, c2, c3, c4] at e
    have d0 : a * b ≤ max (u0 * u1) (l0 * l1) := by
      rcases le_total 0 a with ha | ha
      · exact (mul_le_mul h2 h4 (by
          by_contra hb
          push Not at hb
          have := mul_nonpos_of_nonneg_of_nonpos ha hb.le
          rcases min_choice (u0 * u1 + l0 * l1 - u0 * l1) (u1 * u0 + l1 * l0 - u1 * l0) with h | h <;> rw [h] at e <;>
            nlinarith [mul_pos p0 p1, mul_pos_of_neg_of_neg n0 n1, mul_neg_of_pos_of_neg p0 n1, mul_neg_of_pos_of_neg p1 n0]) p0.le).trans
          (le_max_left _ _)
      · rcases le_total 0 b with hb | hb
        · exact (mul_nonpos_of_nonpos_of_nonneg ha hb).trans ((mul_pos p0 p1).le.trans (le_max_left _ _))
        · refine le_trans ?_ (le_max_right _ _)
          nlinarith [mul_nonneg_of_nonpos_of_nonpos (sub_nonpos.2 h1) hb, mul_nonneg_of_nonpos_of_nonpos n0.le (sub_nonpos.2 h3)]
    dsimp only at e
    rw [← e] at d0
    have e1 : max (u0 * u1) (l0 * l1) < u0 * u1 + l0 * l1 - u0 * l1 :=
      max_lt (by nlinarith [mul_pos_of_neg_of_neg n0 n1, mul_neg_of_pos_of_neg p0 n1]) (by nlinarith [mul_pos p0 p1, mul_neg_of_pos_of_neg p0 n1])
    have e2 : max (u0 * u1) (l0 * l1) < u1 * u0 + l1 * l0 - u1 * l0 :=
      max_lt (by nlinarith [mul_pos_of_neg_of_neg n0 n1, mul_neg_of_pos_of_neg p1 n0]) (by nlinarith [mul_pos p0 p1, mul_neg_of_pos_of_neg p1 n0])
    exact absurd d0 (not_le.2 (lt_min e1 e2))
  · intro h
    have hub : ∀ v ∈ Range2 (· * ·) l0 u0 l1 u1, v ≤ min (max (u0 * u1) (u0 * l1) + max (u0 * l1) (l0 * l1) - u0 * l1)
        (max (u1 * u0) (u1 * l0) + max (u1 * l0) (l1 * l0) - u1 * l0) := fun v hv => le_min (b1 v hv) (b2 v hv)
    refine ⟨?_, hub⟩
    by_cases hc : u0 ≤ 0 ∨ 0 ≤ l1
    · have hm := mcc_upper_attained l0 u0 l1 u1 hf hg hc
      rw [le_antisymm (min_le_left _ _) (hub _ hm)]
      exact hm
    · have hc' : u1 ≤ 0 ∨ 0 ≤ l0 := by
        push Not at hc
        by_contra h'
        push Not at h'
        exact h ⟨⟨h'.2, hc.1⟩, hc.2, h'.1⟩
      have hm := mcc_upper_attained l1 u1 l0 u0 hg hf hc'
      rw [range2_mul_comm] at hm
      rw [le_antisymm (min_le_right _ _) (hub _ hm)]
      exact hm

/-- C89: `Multiply` in ibp mode: the lower bound is the smallest product exactly when one of the inputs is non-negative or a single value. -/
theorem C89_multiply_lower_iff (D : PertDomain X ι α) (f g : Full X ι κ α) (k : κ) (hf : f.lc k ≤ f.uc k) (hg : g.lc k ≤ g.uc k) :
    IsLeast (Range2 (· * ·) (f.lc k) (f.uc k) (g.lc k) (g.uc k)) ((multiplyT D .ibp f g).lc k) ↔
      (0 ≤ f.lc k ∨ 0 ≤ g.lc k) ∨ f.lc k = f.uc k ∨ g.lc k = g.uc k := by
  rw [(multiply_ibp D f g k).2]
  generalize f.lc k = l0 at *
  generalize f.uc k = u0 at *
  generalize g.lc k = l1 at *
  generalize g.uc k = u1 at *
  constructor
  · rintro ⟨⟨a, b, ⟨h1, h2⟩, ⟨h3, h4⟩, e⟩, -⟩
    by_contra hc
    push Not at hc
    obtain ⟨⟨n0, n1⟩, d0, d1⟩ := hc
    have s0 : l0 < u0 := lt_of_le_of_ne hf d0
    have s1 : l1 < u1 := lt_of_le_of_ne hg d1
    rw [min_eq_right (mul_le_mul_of_nonpos_left hg n0.le), min_eq_right (mul_le_mul_of_nonpos_right hf n1.le)] at e
    dsimp only at e
    -- `a b - (l0 u1 + u0 l1 - l0 l1) = (a - l0) (b - l1) + (-l0) (u1 - b) + (-l1) (u0 - a)`
    have : a * b - (l0 * u1 + u0 * l1 - l0 * l1) = (a - l0) * (b - l1) + (-l0) * (u1 - b) + (-l1) * (u0 - a) := by ring
    have t1 : 0 ≤ (a - l0) * (b - l1) := mul_nonneg (sub_nonneg.2 h1) (sub_nonneg.2 h3)
    have t2 : 0 ≤ (-l0) * (u1 - b) := mul_nonneg (by linarith) (sub_nonneg.2 h4)
    have t3 : 0 ≤ (-l1) * (u0 - a) := mul_nonneg (by linarith) (sub_nonneg.2 h2)
    have hb : b = u1 := by
      by_contra hb
      have : 0 < (-l0) * (u1 - b) := mul_pos (by linarith) (sub_pos.2 (lt_of_le_of_ne h4 hb))
      linarith
    have ha : a = u0 := by
      by_contra ha
      have : 0 < (-l1) * (u0 - a) := mul_pos (by linarith) (sub_pos.2 (lt_of_le_of_ne h2 ha))
      linarith
    have : 0 < (a - l0) * (b - l1) := mul_pos (by rw [ha]; linarith) (by rw [hb]; linarith)
    linarith
  · intro h
    have hlb : ∀ v ∈ Range2 (· * ·) l0 u0 l1 u1, min (l0 * l1) (l0 * u1) + min (l0 * l1) (u0 * l1) - l0 * l1 ≤ v := by
      rintro v ⟨a, b, ⟨h1, h2⟩, ⟨h3, h4⟩, rfl⟩
      have e1 : min (l0 * l1) (l0 * u1) ≤ l0 * b := by
        rcases le_total 0 l0 with h | h
        · exact (min_le_left _ _).trans (mul_le_mul_of_nonneg_left h3 h)
        · exact (min_le_right _ _).trans (mul_le_mul_of_nonpos_left h4 h)
      have e2 : min (l0 * l1) (u0 * l1) ≤ a * l1 := by
        rcases le_total 0 l1 with h | h
        · exact (min_le_left _ _).trans (mul_le_mul_of_nonneg_right h1 h)
        · exact (min_le_right _ _).trans (mul_le_mul_of_nonpos_right h2 h)
      dsimp only
      nlinarith [mul_nonneg (sub_nonneg.2 h1) (sub_nonneg.2 h3)]
    refine ⟨?_, hlb⟩
    have corner : ∀ a b, a = l0 ∨ a = u0 → b = l1 ∨ b = u1 → a * b ∈ Range2 (· * ·) l0 u0 l1 u1 := by
      intro a b ha hb
      refine ⟨a, b, ?_, ?_, rfl⟩
      · rcases ha with rfl | rfl <;> first | exact ⟨le_rfl, hf⟩ | exact ⟨hf, le_rfl⟩
      · rcases hb with rfl | rfl <;> first | exact ⟨le_rfl, hg⟩ | exact ⟨hg, le_rfl⟩
    rcases h with (h | h) | h | h
    · rw [min_eq_left (mul_le_mul_of_nonneg_left hg h)]
      rcases min_choice (l0 * l1) (u0 * l1) with e | e <;> rw [e]
      · convert corner l0 l1 (.inl rfl) (.inl rfl) using 1; ring
      · convert corner u0 l1 (.inr rfl) (.inl rfl) using 1; ring
    · rw [min_eq_left (mul_le_mul_of_nonneg_right hf h)]
      rcases min_choice (l0 * l1) (l0 * u1) with e | e <;> rw [e]
      · convert corner l0 l1 (.inl rfl) (.inl rfl) using 1; ring
      · convert corner l0 u1 (.inl rfl) (.inr rfl) using 1; ring
    · rw [← h, min_self]
      rcases min_choice (l0 * l1) (l0 * u1) with e | e <;> rw [e]
      · have := corner l0 l1 (.inl rfl) (.inl rfl); rw [← h] at this; convert this using 1; ring
      · have := corner l0 u1 (.inl rfl) (.inr rfl); rw [← h] at this; convert this using 1; ring
    · rw [← h, min_self]
      rcases min_choice (l0 * l1) (u0 * l1) with e | e <;> rw [e]
      · have := corner l0 l1 (.inl rfl) (.inl rfl); rw [← h] at this; convert this using 1; ring
      · have := corner u0 l1 (.inr rfl) (.inl rfl); rw [← h] at this; convert this using 1; ring

end Exact

/-- C89 refuted: the maximum of two inputs in `[0, 1]` is reported to be at most 2, and their product, for `[-1, 1]`, at most 3; the product
of two inputs in `[-2, -1]` at least 0 instead of 1. -/
theorem C89_loose_refuted :
    ((Net.merge .maximum firstIn secondIn).forward boxDomain .ibp (1 / 10000000) .vSlope (inputTensorsBox .ibp ![0, 0] ![1, 1])).uc 0 = 2 ∧
    ((Net.merge .multiply firstIn secondIn).forward boxDomain .ibp (1 / 10000000) .vSlope (inputTensorsBox .ibp ![-1, -1] ![1, 1])).uc 0 = 3 ∧
    ((Net.merge .multiply firstIn secondIn).forward boxDomain .ibp (1 / 10000000) .vSlope (inputTensorsBox .ibp ![-2, -2] ![-1, -1])).lc 0 = 0 := by
  refine ⟨by decide +kernel, by decide +kernel, by decide +kernel⟩

/-- C89 for `x0 ∈ [-1, 2]` and `x1 ∈ [3, 4]`: relu, sum, product and the upper bound of the maximum are exact; the lower bound of the maximum is
not, nor is the upper bound of a product of two intervals around 0. -/
example :
    let f : Full Unit Unit Unit ℚ := ⟨(), fun _ => 2, fun _ _ => 0, fun _ => 0, fun _ => -1, fun _ _ => 0, fun _ => 0, fun _ => 0, fun _ => 0⟩
    let g : Full Unit Unit Unit ℚ := ⟨(), fun _ => 4, fun _ _ => 0, fun _ => 0, fun _ => 3, fun _ _ => 0, fun _ => 0, fun _ => 0, fun _ => 0⟩
    let D : PertDomain Unit Unit ℚ := ⟨fun _ _ _ => 0, fun _ _ _ => 0⟩
    IsGreatest (Range1 (fun a => max a 0) (-1) 2) ((reluT D .ibp false 1 .vSlope (fun _ => 1) f).uc ()) ∧
    IsGreatest (Range2 (· * ·) (-1) 2 3 4) ((multiplyT D .ibp f g).uc ()) ∧ IsLeast (Range2 (· * ·) (-1) 2 3 4) ((multiplyT D .ibp f g).lc ()) ∧
    IsGreatest (Range2 max 3 4 (-1) 2) ((maximumT D .ibp false 1 (fun _ => 1) g f).uc ()) ∧ IsLeast (Range2 max 3 4 (-1) 2) ((maximumT D .ibp false 1 (fun _ => 1) g f).lc ()) ∧
    ¬ IsGreatest (Range2 max (-1) 2 3 4) ((maximumT D .ibp false 1 (fun _ => 1) f g).uc ()) ∧ ¬ IsGreatest (Range2 (· * ·) (-1) 2 (-1) 2) ((multiplyT D .ibp f f).uc ()) := by
  intro f g D
  have hf : f.lc () ≤ f.uc () := by decide +kernel
  have hg : g.lc () ≤ g.uc () := by decide +kernel
  exact ⟨(C89_exact_partial D 1 .vSlope (fun _ => 1) f g () hf hg).1.1, (C89_multiply_upper_iff D f g () hf hg).mpr (by decide +kernel),
    (C89_multiply_lower_iff D f g () hf hg).mpr (by decide +kernel), (C89_maximum_upper_iff D 1 (fun _ => 1) g f () hg hf).mpr (by decide +kernel),
    (C89_maximum_lower_iff D 1 (fun _ => 1) g f () hg hf).mpr (by decide +kernel), fun h => absurd ((C89_maximum_upper_iff D 1 (fun _ => 1) f g () hf hg).mp h) (by decide +kernel),
    fun h => absurd ((C89_multiply_upper_iff D f f () hf hf).mp h) (by decide +kernel)⟩

end Decomon
