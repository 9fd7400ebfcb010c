import Verif.Lemmas.Backward
import Mathlib.Algebra.BigOperators.Fin
import Mathlib.Tactic.FinCases

/-! Properties C54, C57, C65, C68, C69, C70: backward layers and operations. -/

namespace Decomon

section
variable {X ι κ κ' ν α : Type*} [Fintype ι] [Fintype κ] [Field α] [LinearOrder α] [IsStrictOrderedRing α]

omit [Fintype ι] in
theorem holds_add (D : PertDomain X ι α) (m : Mode) (f0 f1 : Full X ι κ α) (b : Back κ ν α) (y0 y1 : κ → α) (t : ν → α)
    (c0 : ∀ k, (f0.tighten D m true true).lc k ≤ y0 k ∧ y0 k ≤ (f0.tighten D m true true).uc k)
    (c1 : ∀ k, (f1.tighten D m true true).lc k ≤ y1 k ∧ y1 k ≤ (f1.tighten D m true true).uc k)
    (h : b.Holds (fun k => y0 k + y1 k) t) :
    (backwardAdd D m f0 f1 b).1.Holds y0 t ∧ (backwardAdd D m f0 f1 b).2.Holds y1 t := by
  have e : ∀ (w : κ → α) (c : α), affEval w c (fun k => y0 k + y1 k) = (∑ k, w k * y0 k) + affEval w c y1 := by
    intro w c
    simp only [affEval, mul_add, Finset.sum_add_distrib]; ring
  have e' : ∀ (w : κ → α) (c : α), affEval w c (fun k => y0 k + y1 k) = (∑ k, w k * y1 k) + affEval w c y0 := by
    intro w c
    simp only [affEval, mul_add, Finset.sum_add_distrib]; ring
  constructor <;> intro n <;> have hn := h n
  · rw [e, e] at hn
    have u := getUpperBox_sound (show y1 ∈ Box (f1.tighten D m true true).lc (f1.tighten D m true true).uc from c1) (fun k => b.wu k n) (b.bu n)
    have l := getLowerBox_sound (show y1 ∈ Box (f1.tighten D m true true).lc (f1.tighten D m true true).uc from c1) (fun k => b.wl k n) (b.bl n)
    simp only [backwardAdd, affEval]
    simp only [affEval] at u l hn
    exact ⟨by linarith [hn.1], by linarith [hn.2]⟩
  · rw [e', e'] at hn
    have u := getUpperBox_sound (show y0 ∈ Box (f0.tighten D m true true).lc (f0.tighten D m true true).uc from c0) (fun k => b.wu k n) (b.bu n)
    have l := getLowerBox_sound (show y0 ∈ Box (f0.tighten D m true true).lc (f0.tighten D m true true).uc from c0) (fun k => b.wl k n) (b.bl n)
    simp only [backwardAdd, affEval]
    simp only [affEval] at u l hn
    exact ⟨by linarith [hn.1], by linarith [hn.2]⟩

/-- C54: `backward_add` returns bounds in each operand alone. -/
theorem C54_add_sound (D : PertDomain X ι α) (m : Mode) (f0 f1 : Full X ι κ α) (S : Set (ι → α)) (h0 : D.Sound f0.x S)
    (h1 : D.Sound f1.x S) (b : Back κ ν α) (p : ι → α) (hp : p ∈ S) (y0 y1 : κ → α) (t : ν → α) (v0 : Valid m false f0 p y0)
    (v1 : Valid m false f1 p y1) (h : b.Holds (fun k => y0 k + y1 k) t) :
    (backwardAdd D m f0 f1 b).1.Holds y0 t ∧ (backwardAdd D m f0 f1 b).2.Holds y1 t :=
  holds_add D m f0 f1 b y0 y1 t (tighten_const D m false f0 S h0 p hp y0 v0) (tighten_const D m false f1 S h1 p hp y1 v1) h

/-- C54: `backward_subtract`. -/
theorem C54_subtract_sound (D : PertDomain X ι α) (m : Mode) (f0 f1 : Full X ι κ α) (S : Set (ι → α)) (h0 : D.Sound f0.x S)
    (h1 : D.Sound f1.x S) (b : Back κ ν α) (p : ι → α) (hp : p ∈ S) (y0 y1 : κ → α) (t : ν → α) (v0 : Valid m false f0 p y0)
    (v1 : Valid m false f1 p y1) (h : b.Holds (fun k => y0 k - y1 k) t) :
    (backwardSubtract D m f0 f1 b).1.Holds y0 t ∧ (backwardSubtract D m f0 f1 b).2.Holds y1 t := by
  obtain ⟨a0, a1⟩ := C54_add_sound D m f0 (minusT D m f1) S h0 (by simpa [minusT] using h1) b p hp y0 (fun k => - y1 k) t v0
    (valid_minus D m false f1 p y1 v1) (by simpa [sub_eq_add_neg] using h)
  refine ⟨a0, fun n => ?_⟩
  have e : ∀ (w : κ → α) (c : α), affEval (fun k => - w k) c y1 = affEval w c (fun k => - y1 k) := by
    intro w c; simp [affEval]
  simp only [backwardSubtract]
  rw [e, e]
  exact a1 n

/-- C54: `backward_maximum`.  The two hypotheses exclude slivers (vacuous in ibp mode).  Missing: slivers. -/
theorem C54_maximum_sound_partial (D : PertDomain X ι α) (m : Mode) (eps : α) (he : 0 < eps) (f0 f1 : Full X ι κ α) (S : Set (ι → α))
    (h0 : D.Sound f0.x S) (h1 : D.Sound f1.x S) (hs01 : SliverFree D m eps (subtractT D m f0 f1))
    (hs10 : SliverFree D m eps (subtractT D m f1 f0)) (b : Back κ ν α) (p : ι → α) (hp : p ∈ S) (y0 y1 : κ → α) (t : ν → α)
    (v0 : Valid m false f0 p y0) (v1 : Valid m false f1 p y1) (h : b.Holds (fun k => max (y0 k) (y1 k)) t) :
    (backwardMaximum D m eps f0 f1 b).1.Holds y0 t ∧ (backwardMaximum D m eps f0 f1 b).2.Holds y1 t := by
  have step : ∀ (g0 g1 : Full X ι κ α) (z0 z1 : κ → α), D.Sound g0.x S → D.Sound g1.x S → Valid m false g0 p z0 →
      Valid m false g1 p z1 → SliverFree D m eps (subtractT D m g0 g1) → b.Holds (fun k => max (z0 k) (z1 k)) t →
      (backwardAdd D m (reluT D m false eps .vSlope (fun _ => 1) (subtractT D m g0 g1)) g1 b).2.Holds z1 t := by
    intro g0 g1 z0 z1 k0 k1 w0 w1 hs hb
    have a := C07_subtract_valid D m false g0 g1 S k0 k1 p hp z0 z1 w0 w1
    have hx : D.Sound (subtractT D m g0 g1).x S := by simpa [subtractT, addT] using k0
    have r := valid_relu D m false eps he .vSlope (fun _ => 1) (fun _ => ⟨zero_le_one, le_rfl⟩) _ S hx hs p hp _ a
    have hx2 : D.Sound (reluT D m false eps .vSlope (fun _ => 1) (subtractT D m g0 g1)).x S := by simpa [reluT] using hx
    refine (C54_add_sound D m _ g1 S hx2 k1 b p hp _ z1 t r w1 ?_).2
    have e : (fun k => relu (z0 k - z1 k) + z1 k) = fun k => max (z0 k) (z1 k) := by
      funext k; unfold relu; rw [max_add]; simp
    rw [e]; exact hb
  refine ⟨step f1 f0 y1 y0 h1 h0 v1 v0 hs10 ?_, step f0 f1 y0 y1 h0 h1 v0 v1 hs01 h⟩
  have e : (fun k => max (y1 k) (y0 k)) = fun k => max (y0 k) (y1 k) := by funext k; exact max_comm _ _
  rw [e]; exact h

omit [Fintype ι] in
/-- C54: `backward_scale` with a non-negative factor: bounds in terms of `x` when `y = s * x`. -/
theorem C54_scale_sound (s : α) (hs : 0 ≤ s) (b : Back κ ν α) (x : κ → α) (t : ν → α) (h : b.Holds (fun k => s * x k) t) :
    (backwardScale s b).Holds x t := by
  intro n
  have e : ∀ (w : κ → α) (c : α), affEval (fun k => s * w k) c x = affEval w c (fun k => s * x k) := by
    intro w c; simp only [affEval]; congr 1; exact Finset.sum_congr rfl fun k _ => by ring
  simp only [backwardScale, ge_iff_le, hs, if_true]
  rw [e, e]; exact h n

/-- C54: `backward_scale` with a negative factor is wrong for every factor: the biases are swapped as well. -/
theorem C54_scale_refuted (s : α) (hs : s < 0) :
    ∃ b : Back (Fin 1) (Fin 1) α, ∃ x t : Fin 1 → α, b.Holds (fun k => s * x k) t ∧ ¬ (backwardScale s b).Holds x t := by
  refine ⟨⟨fun _ _ => 0, fun _ => 1, fun _ _ => 0, fun _ => 0⟩, fun _ => 0, fun _ => 1, fun n => by simp [affEval], fun h => ?_⟩
  have := (h 0).2
  simp only [backwardScale, ge_iff_le, not_le.2 hs, if_false, affEval] at this
  simp at this
  exact absurd this (not_le.2 zero_lt_one)

/-- C54: `backward_minus` returns the bounds of `-t` in terms of `y`. -/
theorem C54_minus_negates_output (b : Back κ ν α) (y : κ → α) (t : ν → α) (h : b.Holds y t) :
    (backwardMinus b).Holds y (fun n => - t n) := by
  intro n
  simp only [backwardMinus, affEval_neg]
  exact ⟨neg_le_neg (h n).2, neg_le_neg (h n).1⟩

/-- C54: it is *not* the backward form of `y = -x`. -/
theorem C54_minus_refuted :
    ∃ b : Back (Fin 1) (Fin 1) α, ∃ x t : Fin 1 → α, b.Holds (fun k => - x k) t ∧ ¬ (backwardMinus b).Holds x t := by
  refine ⟨⟨fun _ _ => 1, fun _ => 1, fun _ _ => 1, fun _ => 1⟩, fun _ => 0, fun _ => 1, fun n => by simp [affEval], fun h => ?_⟩
  have := (h 0).2
  simp [backwardMinus, affEval] at this
  have h1 : (0 : α) < 1 := zero_lt_one
  linarith

/-- C54: `BackwardAdd` on one input (the bounds hold exactly for that input), on two inputs, and the exception on three or more. -/
theorem C54_addLayer [DecidableEq κ] (D : PertDomain X ι α) (m : Mode) (fs : List (Full X ι κ α)) (S : Set (ι → α)) (p : ι → α)
    (hp : p ∈ S) :
    (∀ f0, fs = [f0] → ∃ r, backwardAddLayer D m fs = .ok [r] ∧ ∀ y t, r.Holds y t ↔ t = y) ∧
    (∀ f0 f1 y0 y1, fs = [f0, f1] → D.Sound f0.x S → D.Sound f1.x S → Valid m false f0 p y0 → Valid m false f1 p y1 →
      ∃ r0 r1, backwardAddLayer D m fs = .ok [r0, r1] ∧ r0.Holds y0 (fun k => y0 k + y1 k) ∧ r1.Holds y1 (fun k => y0 k + y1 k)) ∧
    (2 < fs.length → backwardAddLayer D m fs = .error .notImplemented) := by
  refine ⟨?_, ?_, ?_⟩
  · rintro f0 rfl
    refine ⟨Back.identity, rfl, fun y t => ⟨fun h => funext fun k => ?_, fun h => h ▸ holds_identity _⟩⟩
    have h1 := h k
    have h2 := holds_identity (α := α) y k
    simp only [Back.identity] at h1 h2
    exact le_antisymm (h1.2.trans h2.1) (h2.2.trans h1.1)
  · rintro f0 f1 y0 y1 rfl h0 h1 v0 v1
    obtain ⟨a, b⟩ := C54_add_sound D m f0 f1 S h0 h1 Back.identity p hp y0 y1 _ v0 v1 (holds_identity _)
    exact ⟨_, _, rfl, a, b⟩
  · intro h
    match fs, h with
    | _ :: _ :: _ :: _, _ => rfl

/-- C54: `BackwardAverage` on two inputs. -/
theorem C54_average_two_sound_partial [DecidableEq κ] (D : PertDomain X ι α) (m : Mode) (f0 f1 : Full X ι κ α) (S : Set (ι → α))
    (h0 : D.Sound f0.x S) (h1 : D.Sound f1.x S) (p : ι → α) (hp : p ∈ S) (y0 y1 : κ → α) (v0 : Valid m false f0 p y0)
    (v1 : Valid m false f1 p y1) :
    ∃ r0 r1, backwardAverageLayer D m f0 [f1] = [r0, r1] ∧ r0.Holds y0 (fun k => (y0 k + y1 k) / 2) ∧
      r1.Holds y1 (fun k => (y0 k + y1 k) / 2) := by
  obtain ⟨a, b⟩ := C54_add_sound D m f0 f1 S h0 h1 Back.identity p hp y0 y1 _ v0 v1 (holds_identity _)
  refine ⟨_, _, rfl, fun n => ?_, fun n => ?_⟩
  all_goals
    have e2 : ((([f0, f1] : List (Full X ι κ α)).length : ℕ) : α) = 2 := by norm_num
    dsimp only [List.getD, List.length]
    rw [affEval_smul, affEval_smul]
  · have := a n
    push_cast
    constructor <;> [skip; skip] <;> simp only [if_true, List.getElem?_cons_zero, List.getElem?_cons_succ, Option.getD_some, zero_add] <;> norm_num <;> linarith [this.1, this.2]
  · have := b n
    push_cast
    constructor <;> [skip; skip] <;> simp only [if_true, List.getElem?_cons_zero, List.getElem?_cons_succ, Option.getD_some, zero_add] <;> norm_num <;> linarith [this.1, this.2]

end

/-- Bounds of a known scalar, ibp mode. -/
def pointFull (v : ℚ) : Full Unit (Fin 1) (Fin 1) ℚ :=
  ⟨(), fun _ => v, fun _ _ => 0, fun _ => 0, fun _ => v, fun _ _ => 0, fun _ => 0, fun _ => 0, fun _ => 0⟩

/-- A domain whose concretisation is not used (ibp mode). -/
def noDomain : PertDomain Unit (Fin 1) ℚ := ⟨fun _ _ b => b, fun _ _ b => b⟩

theorem pointFull_valid (v : ℚ) (p : Fin 1 → ℚ) : Valid .ibp false (pointFull v) p (fun _ => v) :=
  ⟨fun _ _ => ⟨le_rfl, le_rfl⟩, by simp [getAffine], by simp⟩

/-- Non-vacuity of C54: operands known exactly. -/
example : (Back.identity : Back (Fin 1) (Fin 1) ℚ).Holds (fun _ => 2 + 3) (fun _ => 5) ∧
    Valid .ibp false (pointFull 2) (fun _ => 0) (fun _ => 2) ∧ SliverFree noDomain .ibp 1 (subtractT noDomain .ibp (pointFull 2) (pointFull 3)) :=
  ⟨by simpa [show (2 : ℚ) + 3 = 5 by norm_num] using holds_identity (fun _ : Fin 1 => (5 : ℚ)), pointFull_valid 2 _, by simp [SliverFree, getAffine]⟩

/-- C54: `backward_minimum` is wrong: with operands 0 and 1 the lower bound of their minimum is 1. -/
theorem C54_minimum_refuted :
    ¬ (backwardMinimum noDomain .ibp (1 / 10000000) (pointFull 0) (pointFull 1) Back.identity).1.Holds (fun _ => 0)
      (fun _ => min 0 1) := by
  intro h
  have := (h 0).1
  revert this
  decide +kernel

theorem back_identity (t : Fin 1 → ℚ) : (Back.identity : Back (Fin 1) (Fin 1) ℚ).Holds t t := holds_identity t

/-- C54 for `x` and `-x` with `x ∈ [-1, 1]`, in every mode: sum, difference, maximum. -/
example (m : Mode) (p : Fin 1 → ℚ) (hp : p ∈ Box (fun _ => -1) fun _ => 1) :
    let f := oneInput (-1) 1
    let g := minusT boxDomain m f
    (backwardAdd boxDomain m f g Back.identity).1.Holds p (fun k => p k + -p k) ∧
    (backwardSubtract boxDomain m f g Back.identity).1.Holds p (fun k => p k - -p k) ∧
    (backwardMaximum boxDomain m (1 / 10000000) f g Back.identity).1.Holds p (fun k => max (p k) (-p k)) := by
  intro f g
  have s := oneInput_sound (-1) 1
  have v := oneInput_valid m _ _ p hp
  have n := C07_minus_valid boxDomain m false _ p p v
  exact ⟨(C54_add_sound boxDomain m f g _ s s _ p hp p _ _ v n (back_identity _)).1, (C54_subtract_sound boxDomain m f g _ s s _ p hp p _ _ v n (back_identity _)).1,
    (C54_maximum_sound_partial boxDomain m _ (by norm_num) f g _ s s (by unfold SliverFree; cases m <;> decide +kernel)
      (by unfold SliverFree; cases m <;> decide +kernel) _ p hp p _ _ v n (back_identity _)).1⟩

/-- Scaling by 3 and negation of the output. -/
example : (backwardScale 3 (Back.identity : Back (Fin 1) (Fin 1) ℚ)).Holds (fun _ => 2) (fun _ => 3 * 2) ∧
    (backwardMinus (Back.identity : Back (Fin 1) (Fin 1) ℚ)).Holds (fun _ => 2) fun _ => -2 :=
  ⟨C54_scale_sound 3 (by norm_num) _ _ _ (back_identity _), C54_minus_negates_output _ _ _ (back_identity fun _ => 2)⟩

/-- The layers Add and Average. -/
example (m : Mode) (p : Fin 1 → ℚ) (hp : p ∈ Box (fun _ => -1) fun _ => 1) :
    let f := oneInput (-1) 1
    (∃ r0 r1, backwardAddLayer boxDomain m [f, f] = .ok [r0, r1] ∧ r0.Holds p (fun k => p k + p k) ∧ r1.Holds p fun k => p k + p k) ∧
    (∃ r0 r1, backwardAverageLayer boxDomain m f [f] = [r0, r1] ∧ r0.Holds p (fun k => (p k + p k) / 2) ∧ r1.Holds p fun k => (p k + p k) / 2) ∧
    backwardAddLayer boxDomain m [f, f, f] = .error .notImplemented := by
  intro f
  have s := oneInput_sound (-1) 1
  have v := oneInput_valid m _ _ p hp
  exact ⟨(C54_addLayer boxDomain m [f, f] _ p hp).2.1 f f p p rfl s s v v, C54_average_two_sound_partial boxDomain m f f _ s s p hp p p v v,
    (C54_addLayer boxDomain m [f, f, f] _ p hp).2.2 (by simp)⟩

/-- C54: `BackwardAverage` on three inputs is wrong: with inputs 0, 3, 0 the average is 1, and the upper bound in terms of the last
input is 0. -/
theorem C54_average_three_refuted :
    ∃ r0 r1 r2, backwardAverageLayer noDomain .ibp (pointFull 0) [pointFull 3, pointFull 0] = [r0, r1, r2] ∧
      ¬ r2.Holds (fun _ => 0) (fun _ => (0 + 3 + 0) / 3) := by
  refine ⟨_, _, _, rfl, fun h => ?_⟩
  have := (h 0).2
  revert this
  decide +kernel

/-! ### Toeplitz matrices -/

/-- C57, specification: the convolution of a channels-last image with zero padding. -/
def convSpec {α : Type*} [Field α] (h w cin kh kw cout s0 s1 d0 d1 p0 p1 : ℕ) (kernel : Fin kh → Fin kw → Fin cin → Fin cout → α)
    (x : Fin h → Fin w → Fin cin → α) (r c : ℕ) (o : Fin cout) : α :=
  ∑ i : Fin kh, ∑ j : Fin kw, ∑ ch : Fin cin, kernel i j ch o *
    if hin : (p0 ≤ r * s0 + i * d0 ∧ r * s0 + i * d0 - p0 < h) ∧ (p1 ≤ c * s1 + j * d1 ∧ c * s1 + j * d1 - p1 < w) then
      x ⟨r * s0 + i * d0 - p0, hin.1.2⟩ ⟨c * s1 + j * d1 - p1, hin.2.2⟩ ch
    else 0

/-- C57: for a square kernel the matrix represents the convolution, for every image size, stride, dilation and padding
(channels last).  Missing with respect to the full claim: non-square kernels (the code raises) and channels first (refuted). -/
theorem C57_toeplitz_conv_partial {α : Type*} [Field α] (h w cin k cout oh ow s0 s1 d0 d1 p0 p1 : ℕ)
    (kernel : Fin k × Fin k × Fin cin × Fin cout → α) :
    ∃ M, getToeplitz h w cin k k cout oh ow s0 s1 d0 d1 p0 p1 kernel = .ok M ∧
      ∀ (x : Fin h × Fin w × Fin cin → α) (o : Fin oh × Fin ow × Fin cout),
        ∑ s, M s o * x s = convSpec h w cin k k cout s0 s1 d0 d1 p0 p1 (fun i j c o => kernel (i, j, c, o))
          (fun i j c => x (i, j, c)) o.1 o.2.1 o.2.2 := by
  refine ⟨_, by simp [getToeplitz]; rfl, fun x o => ?_⟩
  rw [toeplitz_sum', convSpec]
  simp only [Fintype.sum_prod_type]
  refine Finset.sum_congr rfl fun i _ => Finset.sum_congr rfl fun j _ => Finset.sum_congr rfl fun c _ => ?_
  simp only [conv2dIndex, paddedSrc]
  split_ifs with h1 h2 h3 <;> simp_all

/-- C57: a non-square kernel is refused with `ValueError`. -/
theorem C57_non_square_raises {α : Type*} [Field α] (h w cin kh kw cout oh ow s0 s1 d0 d1 p0 p1 : ℕ)
    (kernel : Fin kh × Fin kw × Fin cin × Fin cout → α) (h1 : 0 < kh) (h2 : 0 < cin) (h3 : 0 < cout) (hk : kh ≠ kw) :
    getToeplitz h w cin kh kw cout oh ow s0 s1 d0 d1 p0 p1 kernel = .error .valueError := by
  have : kh * kw * cin * cout ≠ kh * kh * cin * cout := by
    intro e
    have e1 := Nat.eq_of_mul_eq_mul_right h3 e
    have e2 := Nat.eq_of_mul_eq_mul_right h2 e1
    exact hk (Nat.eq_of_mul_eq_mul_left h1 e2).symm
  simp [getToeplitz, this]

/-- C57: channels first is wrong: image of shape `(2 channels, 1, 2)` with entries `0, 1 | 2, 3`, kernel `1 × 1` reading channel 0;
the output is `0, 1`, the matrix gives `0, 2`. -/
theorem C57_channels_first_refuted :
    (fun q => toeplitzChannelsFirstApply 1 2 2 1 1 1 2 0 0 (fun t => if t.2.2.1 = 0 then (1 : ℚ) else 0) (fun i => (i : ℚ)) q) 1 = 2 ∧
    (∑ c : Fin 2, (if c = 0 then (1 : ℚ) else 0) * ((fun i : ℕ => (i : ℚ)) (flatFirst 1 2 0 1 c))) = 1 := by
  constructor <;> decide +kernel

/-- C57: the matrix of a `2 × 2` kernel with stride 2 on a `3 × 3` image padded by one, and a `1 × 2` kernel. -/
example : ∃ M, getToeplitz 3 3 1 2 2 1 2 2 2 2 1 1 1 1 (fun t => if t.1 = 1 then (3 : ℚ) else -1) = .ok M ∧
    ∑ s, M s (1, 1, 0) * (fun s : Fin 3 × Fin 3 × Fin 1 => (s.1.val + 10 * s.2.1.val : ℚ)) s =
      convSpec 3 3 1 2 2 1 2 2 1 1 1 1 (fun i _ _ _ => if i = 1 then (3 : ℚ) else -1) (fun i j _ => i.val + 10 * j.val) 1 1 0 := by
  obtain ⟨M, h, e⟩ := C57_toeplitz_conv_partial 3 3 1 2 1 2 2 2 2 1 1 1 1 (fun t => if t.1 = 1 then (3 : ℚ) else -1)
  exact ⟨M, h, e _ (1, 1, 0)⟩

example (kernel : Fin 1 × Fin 2 × Fin 1 × Fin 1 → ℚ) : getToeplitz 3 3 1 1 2 1 3 2 1 1 1 1 0 0 kernel = .error .valueError :=
  C57_non_square_raises 3 3 1 1 2 1 3 2 1 1 1 1 0 0 kernel (by norm_num) (by norm_num) (by norm_num) (by norm_num)

theorem flatLast_inj {oh ow ch : ℕ} (a b : Fin oh × Fin ow × Fin ch)
    (e : flatLast ow ch a.1 a.2.1 a.2.2 = flatLast ow ch b.1 b.2.1 b.2.2) : a = b := by
  obtain ⟨i, j, c⟩ := a
  obtain ⟨i', j', c'⟩ := b
  have key : ∀ (n x y u v : ℕ), u < n → v < n → x * n + u = y * n + v → x = y ∧ u = v := by
    intro n x y u v hu hv h
    have hn : 0 < n := by omega
    have h1 := congrArg (· / n) h
    have h2 := congrArg (· % n) h
    simp only [Nat.mul_comm _ n, Nat.mul_add_div hn, Nat.div_eq_of_lt hu, Nat.div_eq_of_lt hv, Nat.mul_add_mod, Nat.mod_eq_of_lt hu,
      Nat.mod_eq_of_lt hv] at h1 h2
    exact ⟨by simpa using h1, h2⟩
  obtain ⟨e1, e2⟩ := key _ _ _ _ _ c.isLt c'.isLt e
  obtain ⟨e3, e4⟩ := key _ _ _ _ _ j.isLt j'.isLt e1
  exact Prod.ext (Fin.ext e3) (Prod.ext (Fin.ext e4) (Fin.ext e2))

/-- C57: what the matrix of `get_toeplitz_channels_first` does, for every size and padding: it convolves the image read as if the channels came
last, with strides and dilation 1, and writes the result in the same order. -/
theorem C57_channels_first_apply {α : Type*} [Field α] (h w cin k cout oh ow p0 p1 : ℕ)
    (kernel : Fin k × Fin k × Fin cin × Fin cout → α) (x : ℕ → α) (o : Fin oh × Fin ow × Fin cout) :
    toeplitzChannelsFirstApply h w cin k cout oh ow p0 p1 kernel x (flatLast ow cout o.1 o.2.1 o.2.2) =
      convSpec h w cin k k cout 1 1 1 1 p0 p1 (fun i j c o => kernel (i, j, c, o)) (fun i j c => x (flatLast w cin i j c)) o.1 o.2.1 o.2.2 := by
  obtain ⟨M, e, hM⟩ := C57_toeplitz_conv_partial h w cin k cout oh ow 1 1 1 1 p0 p1 kernel
  rw [← hM (fun s => x (flatLast w cin s.1 s.2.1 s.2.2)) o, toeplitzChannelsFirstApply]
  refine Finset.sum_congr rfl fun s _ => ?_
  rw [Finset.sum_eq_single o (fun c _ hc => if_neg fun q => hc (flatLast_inj c o q)) (by simp), if_pos rfl]
  simp only [getToeplitz, if_true, Except.ok.injEq] at e
  rw [← e]

/-- C57: so channels first is right for images with one channel on both sides (strides and dilation 1), where the two orders agree.  Missing:
several channels (refuted). -/
theorem C57_channels_first_single_partial {α : Type*} [Field α] (h w k oh ow p0 p1 : ℕ)
    (kernel : Fin k × Fin k × Fin 1 × Fin 1 → α) (x : ℕ → α) (i : Fin oh) (j : Fin ow) :
    toeplitzChannelsFirstApply h w 1 k 1 oh ow p0 p1 kernel x (flatFirst oh ow i j 0) =
      convSpec h w 1 k k 1 1 1 1 1 p0 p1 (fun i j c o => kernel (i, j, c, o)) (fun i j c => x (flatFirst h w i j c)) i j 0 := by
  have e : ∀ (a b i j : ℕ) (c : Fin 1), flatFirst a b i j c = flatLast b 1 i j c := by
    intro a b i j c
    rw [Subsingleton.elim c 0]
    simp [flatFirst, flatLast]
  have := C57_channels_first_apply h w 1 k 1 oh ow p0 p1 kernel x (i, j, 0)
  simp only [e]
  rw [← this]
  congr 1
  simp [flatFirst, flatLast]

/-- With one channel the order of the axes does not matter. -/
example (v : ℕ → ℚ) : toeplitzChannelsFirstApply 1 2 1 1 1 1 2 0 0 (fun _ => (3 : ℚ)) v (flatFirst 1 2 0 1 0) =
    convSpec 1 2 1 1 1 1 1 1 1 1 0 0 (fun _ _ _ _ => 3) (fun i j c => v (flatFirst 1 2 i j c)) 0 1 0 :=
  C57_channels_first_single_partial 1 2 1 1 2 0 0 (fun _ => 3) v (0 : Fin 1) (1 : Fin 2)

/-! ### Backward `max_` -/

section
variable {X ι κ ν α : Type*} [Fintype ι] [Fintype κ] [Field α] [LinearOrder α] [IsStrictOrderedRing α]

/-- No sliver is met in the pairs built by `backward_max_`. -/
def MaxPairsOK (D Di : PertDomain X ι α) (m : Mode) (eps : α) : Full X ι κ α → List (Full X ι κ α) → Prop
  | _, [] => True
  | acc, f :: fs => SliverFree Di m eps (subtractT Di m acc f) ∧ SliverFree Di m eps (subtractT Di m f acc) ∧
      SliverFree D m eps (subtractT D m f acc) ∧ MaxPairsOK D Di m eps (maximumT D m false eps (fun _ => 1) acc f) fs

theorem maxLoop_append (D Di : PertDomain X ι α) (m : Mode) (eps : α) (he : 0 < eps) (S : Set (ι → α)) (p : ι → α) (hp : p ∈ S)
    (t : ν → α) :
    ∀ (fs : List (Full X ι κ α)) (ys : List (κ → α)) (f0 : Full X ι κ α) (y0 : κ → α)
      (acc : List (Full X ι κ α × Full X ι κ α)) (done : List (κ → α)),
      D.Sound f0.x S → Di.Sound f0.x S → Valid m false f0 p y0 → List.Forall₂ (fun f y => D.Sound f.x S ∧ Di.Sound f.x S ∧ Valid m false f p y) fs ys →
      MaxPairsOK D Di m eps f0 fs →
      (∀ b : Back κ ν α, b.Holds y0 t → List.Forall₂ (fun (r : Back κ ν α) z => r.Holds z t) (backwardMaxLoop Di m eps acc b) done) →
      ∀ b : Back κ ν α, b.Holds (fun k => (ys.map fun y => y k).foldl max (y0 k)) t →
        List.Forall₂ (fun (r : Back κ ν α) z => r.Holds z t) (backwardMaxLoop Di m eps (backwardMaxPairs D m eps f0 fs acc) b)
          (done ++ ys) := by
  intro fs
  induction fs with
  | nil =>
    intro ys f0 y0 acc done _ _ _ h _ hacc b hb
    cases h
    simpa [backwardMaxPairs] using hacc b (by simpa using hb)
  | cons f fs ih =>
    intro ys f0 y0 acc done h0 g0 v0 h hs hacc b hb
    cases h with
    | @cons _ y _ ys hf hfs =>
      have := ih ys (maximumT D m false eps (fun _ => 1) f0 f) (fun k => max (y0 k) (y k)) ((f0, f) :: acc) (done ++ [y])
        (by rw [maximumT_x]; exact hf.1) (by rw [maximumT_x]; exact hf.2.1)
        (C08_maximum_valid_partial D m false eps he (fun _ => 1) (fun _ => ⟨zero_le_one, le_rfl⟩) f0 f S h0 hf.1 hs.2.2.1 p hp
          y0 y v0 hf.2.2) hfs hs.2.2.2
        (fun b' hb' => by
          obtain ⟨r0, r1⟩ := C54_maximum_sound_partial Di m eps he f0 f S g0 hf.2.1 hs.1 hs.2.1 b' p hp y0 y t v0 hf.2.2 hb'
          simp only [backwardMaxLoop]
          exact List.rel_append (hacc _ r0) (.cons r1 .nil))
        b (by simpa using hb)
      simpa [backwardMaxPairs] using this

/-- C65: before they are merged, the bounds that `backward_max_` computes for each entry of the axis are sound, for any number of
entries.  `Di` is the domain of the inner calls, a `BoxDomain` whatever the domain `D` of the caller: both must read
the input region from the first tensor.  Missing with respect to the full claim: what is returned, refuted below (and slivers). -/
theorem C65_each_entry_partial (D Di : PertDomain X ι α) (m : Mode) (eps : α) (he : 0 < eps) (S : Set (ι → α)) (p : ι → α) (hp : p ∈ S)
    (f0 : Full X ι κ α) (fs : List (Full X ι κ α)) (y0 : κ → α) (ys : List (κ → α)) (h0 : D.Sound f0.x S) (g0 : Di.Sound f0.x S) (v0 : Valid m false f0 p y0)
    (h : List.Forall₂ (fun f y => D.Sound f.x S ∧ Di.Sound f.x S ∧ Valid m false f p y) fs ys) (hs : MaxPairsOK D Di m eps f0 fs) (b : Back κ ν α)
    (t : ν → α) (hb : b.Holds (fun k => (ys.map fun y => y k).foldl max (y0 k)) t) :
    List.Forall₂ (fun (r : Back κ ν α) z => r.Holds z t) (backwardMaxLoop Di m eps (backwardMaxPairs D m eps f0 fs []) b) (y0 :: ys) :=
  maxLoop_append D Di m eps he S p hp t fs ys f0 y0 [] [y0] h0 g0 v0 h hs (fun b' hb' => .cons hb' .nil) b hb

/-- C65: what is returned bounds the maximum times the number of entries of the axis, that is, it is right only for one entry.  Missing: the
bounds of the maximum itself (refuted below). -/
theorem C65_returned_partial (D Di : PertDomain X ι α) (m : Mode) (eps : α) (he : 0 < eps) (S : Set (ι → α)) (p : ι → α) (hp : p ∈ S)
    (f0 : Full X ι κ α) (fs : List (Full X ι κ α)) (y0 : κ → α) (ys : List (κ → α)) (h0 : D.Sound f0.x S) (g0 : Di.Sound f0.x S) (v0 : Valid m false f0 p y0)
    (h : List.Forall₂ (fun f y => D.Sound f.x S ∧ Di.Sound f.x S ∧ Valid m false f p y) fs ys) (hs : MaxPairsOK D Di m eps f0 fs) (b : Back κ ν α)
    (t : ν → α) (hb : b.Holds (fun k => (ys.map fun y => y k).foldl max (y0 k)) t) (n : ν) :
    let r := backwardMax D Di m eps f0 fs b
    (List.zipWith (fun w y => ∑ k, w.2 k n * y k) r.1 (y0 :: ys)).sum + r.2.2 n ≤ ((y0 :: ys).length : α) * t n ∧
      ((y0 :: ys).length : α) * t n ≤ (List.zipWith (fun w y => ∑ k, w.1 k n * y k) r.1 (y0 :: ys)).sum + r.2.1 n := by
  have key := C65_each_entry_partial D Di m eps he S p hp f0 fs y0 ys h0 g0 v0 h hs b t hb
  simp only [backwardMax]
  generalize backwardMaxLoop Di m eps (backwardMaxPairs D m eps f0 fs []) b = l at key ⊢
  generalize y0 :: ys = z at key ⊢
  clear h hb hs
  induction key with
  | nil => simp
  | @cons r y l z hr _ ih =>
    have := hr n
    simp only [affEval] at this
    simp only [List.map_cons, List.zipWith_cons_cons, List.sum_cons, List.length_cons, Nat.cast_add, Nat.cast_one]
    have e1 : ∀ w : κ → ν → α, ∑ k, w k n * y k = ∑ k, y k * w k n := fun w => Finset.sum_congr rfl fun k _ => mul_comm _ _
    constructor <;> nlinarith [this.1, this.2, ih.1, ih.2, e1 r.wu, e1 r.wl]

end

/-- C65: the returned bounds put all the weights side by side and sum the biases, that is, sum the bounds of the entries: for two
entries equal to -10, whose maximum is -10, the upper bound is -20. -/
theorem C65_backward_max_refuted :
    let r := backwardMax noDomain noDomain .ibp (1 / 10000000) (pointFull (-10)) [pointFull (-10)] Back.identity
    (r.1.map fun w => w.1 0 0 * (-10)).sum + r.2.1 0 < max (-10) (-10) := by
  decide +kernel

/-- C65 for the three constants `-10`, `3`, `-10`: each entry of the list holds for its own input, and what is returned bounds 9 instead of 3. -/
example :
    let r := backwardMax noDomain noDomain .ibp (1 / 10000000 : ℚ) (pointFull (-10)) [pointFull 3, pointFull (-10)] Back.identity
    List.Forall₂ (fun (r : Back (Fin 1) (Fin 1) ℚ) z => r.Holds z fun _ => 3)
      (backwardMaxLoop noDomain .ibp (1 / 10000000) (backwardMaxPairs noDomain .ibp (1 / 10000000) (pointFull (-10)) [pointFull 3, pointFull (-10)] []) Back.identity)
      [fun _ => -10, fun _ => 3, fun _ => -10] ∧
    (3 : ℕ) * (3 : ℚ) ≤ (List.zipWith (fun w y => ∑ k, w.1 k 0 * y k) r.1 [fun _ => -10, fun _ => 3, fun _ => -10]).sum + r.2.1 0 := by
  have s : ∀ v, noDomain.Sound (pointFull v).x {fun _ => 0} := fun v p hp w b => by cases hp; simp [noDomain, affEval]
  have l : List.Forall₂ (fun f y => noDomain.Sound f.x {fun _ => 0} ∧ noDomain.Sound f.x {fun _ => 0} ∧ Valid .ibp false f (fun _ => 0) y)
      [pointFull 3, pointFull (-10)] [fun _ => 3, fun _ => -10] := .cons ⟨s _, s _, pointFull_valid 3 _⟩ (.cons ⟨s _, s _, pointFull_valid (-10) _⟩ .nil)
  have o : MaxPairsOK noDomain noDomain .ibp (1 / 10000000 : ℚ) (pointFull (-10)) [pointFull 3, pointFull (-10)] := by simp [MaxPairsOK, SliverFree, getAffine]
  have b : (Back.identity : Back (Fin 1) (Fin 1) ℚ).Holds (fun k => ([fun _ => 3, fun _ => -10].map fun y : Fin 1 → ℚ => y k).foldl max (-10)) fun _ => 3 := by
    have e : (fun k => ([fun _ => 3, fun _ => -10].map fun y : Fin 1 → ℚ => y k).foldl max (-10)) = fun _ => (3 : ℚ) := by funext k; norm_num
    rw [e]; exact back_identity _
  exact ⟨C65_each_entry_partial noDomain noDomain .ibp _ (by norm_num) {fun _ => 0} _ rfl _ _ _ _ (s _) (s _) (pointFull_valid (-10) _) l o _ _ b,
    (C65_returned_partial noDomain noDomain .ibp _ (by norm_num) {fun _ => 0} _ rfl _ _ _ _ (s _) (s _) (pointFull_valid (-10) _) l o _ _ b 0).2⟩

/-- Non-vacuity of C65 (ibp mode: no sliver). -/
example : MaxPairsOK noDomain noDomain .ibp (1 / 10000000) (pointFull (-10)) [pointFull 3, pointFull (-10)] := by
  simp [MaxPairsOK, SliverFree, getAffine]

/-! ### Permute -/

/-- C68: `BackwardPermute` for `Permute((2,1))` on `a × b`, both at least 2, gives the weights of the layer (output position `s` reads
input position `(s % a) * b + s / a`) exactly when `a = b`. -/
theorem C68_permute_iff_square {α : Type*} [Field α] (a b : ℕ) (ha : 2 ≤ a) (hb : 2 ≤ b) :
    (∀ q < a * b, ∀ s < a * b, ((backwardPermute a b : Back ℕ ℕ α).wu q s = 1 ↔ q = (s % a) * b + s / a)) ↔ a = b := by
  constructor
  · intro h
    have hlt : b < a * b := by nlinarith
    have h1 : 1 < a * b := by nlinarith
    have := (h b hlt 1 h1).2 (by rw [Nat.mod_eq_of_lt (by omega : 1 < a), Nat.div_eq_of_lt (by omega : 1 < a)]; omega)
    simp only [backwardPermute] at this
    split at this
    · rename_i e
      rcases Nat.eq_zero_or_pos (b % a) with hz | hz
      · rw [hz] at e
        have hd := Nat.div_add_mod b a
        rw [hz] at hd
        have : b / a = 1 := by omega
        rw [this] at hd
        omega
      · have : b ≤ b % a * b := Nat.le_mul_of_pos_left b hz
        have h0 := Nat.zero_le (b / a)
        exfalso
        linarith
    · exact absurd this zero_ne_one
  · rintro rfl q hq s hs
    have inv : ∀ q < a * a, ((q % a) * a + q / a) % a * a + ((q % a) * a + q / a) / a = q := by
      intro q hq
      have hd : q / a < a := Nat.div_lt_of_lt_mul hq
      have e1 : (q % a * a + q / a) % a = q / a := by
        rw [Nat.add_comm, Nat.add_mul_mod_self_right]; exact Nat.mod_eq_of_lt hd
      have e2 : (q % a * a + q / a) / a = q % a := by
        rw [Nat.add_comm, Nat.add_mul_div_right _ _ (by omega), Nat.div_eq_of_lt hd]; omega
      rw [e1, e2, Nat.mul_comm]; exact Nat.div_add_mod q a
    simp only [backwardPermute]
    constructor
    · intro h
      split at h
      · rename_i e
        rw [← e]; exact (inv q hq).symm
      · exact absurd h zero_ne_one
    · rintro rfl
      rw [if_pos (inv s hs)]

example : ¬ ∀ q < 2 * 3, ∀ s < 2 * 3, ((backwardPermute 2 3 : Back ℕ ℕ ℚ).wu q s = 1 ↔ q = (s % 2) * 3 + s / 2) := fun h =>
  absurd ((C68_permute_iff_square 2 3 le_rfl (by norm_num)).mp h) (by norm_num)

/-- C68: shape `(2, 3)`: output 1 must read input 3; the weights read input 2. -/
example : (backwardPermute 2 3 : Back ℕ ℕ ℚ).wu 2 1 = 1 ∧ (backwardPermute 2 3 : Back ℕ ℕ ℚ).wu 3 1 = 0 := by decide +kernel

/-! ### Multiply -/

/-- C69: whatever the sizes, `backward_multiply` either raises or returns weights of rank 4, where every consumer
(`merge_with_previous`) expects rank 3. -/
theorem C69_multiply_rank_refuted (B n nOut : ℕ) (hn : 0 < n) (ho : 0 < nOut) :
    backwardMultiplyShape B n nOut = if B = n ∨ B = 1 ∨ n = 1 then .ok [B, max B n, n, nOut] else .error .valueError := by
  unfold backwardMultiplyShape
  by_cases h : B = n ∨ B = 1 ∨ n = 1
  · simp [broadcastRev, Except.map, h, Nat.max_eq_left hn, Nat.max_eq_left ho]
  · simp [broadcastRev, Except.map, h]

/-- C69: for example three coordinates, two outputs and one sample. -/
example : backwardMultiplyShape 1 3 2 = .ok [1, 3, 3, 2] := by rw [C69_multiply_rank_refuted 1 3 2 (by decide) (by decide)]; rfl

/-- C69: for one coordinate and a batch of one sample the numbers are sound.  Missing: everything else (see the refutation). -/
theorem C69_multiply_value_partial {X ι κ ν α : Type*} [Fintype ι] [Fintype κ] [Unique κ] [Field α] [LinearOrder α]
    [IsStrictOrderedRing α] (D : PertDomain X ι α) (m : Mode) (f0 f1 : Full X ι κ α) (S : Set (ι → α)) (h0 : D.Sound f0.x S)
    (h1 : D.Sound f1.x S) (b : Back κ ν α) (p : ι → α) (hp : p ∈ S) (y0 y1 : κ → α) (t : ν → α) (v0 : Valid m false f0 p y0)
    (v1 : Valid m false f1 p y1) (h : b.Holds (fun k => y0 k * y1 k) t) (n : ν) :
    let r := (backwardMultiply D m f0 f1 b).1
    r.wl default default n * y0 default + r.bl default n ≤ t n ∧ t n ≤ r.wu default default n * y0 default + r.bu default n := by
  have c0 := tighten_const D m false f0 S h0 p hp y0 v0 default
  have c1 := tighten_const D m false f1 S h1 p hp y1 v1 default
  have hn := h n
  simp only [affEval, Fintype.sum_unique] at hn
  simp only [backwardMultiply, Fintype.sum_unique]
  generalize (f0.tighten D m true true).lc default = l0 at *
  generalize (f0.tighten D m true true).uc default = u0 at *
  generalize (f1.tighten D m true true).lc default = l1 at *
  generalize (f1.tighten D m true true).uc default = u1 at *
  generalize y0 default = a at *
  generalize y1 default = c at *
  have hu : a * c ≤ u1 * a + (max l0 0 * u1 + min l0 0 * l1 - u1 * l0) := by
    have := mul_le_posneg (w := l0) c1.1 c1.2
    nlinarith [mul_nonneg (sub_nonneg.2 c0.1) (sub_nonneg.2 c1.2)]
  have hl : l1 * a + (max l0 0 * l1 + min l0 0 * u1 - l1 * l0) ≤ a * c := by
    have := posneg_le_mul (w := l0) c1.1 c1.2
    nlinarith [mul_nonneg (sub_nonneg.2 c0.1) (sub_nonneg.2 c1.1)]
  have pu := mul_le_posneg (w := b.wu default n) hl hu
  have pl := posneg_le_mul (w := b.wl default n) hl hu
  constructor
  · refine le_trans (le_of_eq ?_) ((add_le_add_left pl (b.bl n)).trans hn.1)
    ring
  · refine hn.2.trans ((add_le_add_left pu (b.bu n)).trans (le_of_eq ?_))
    ring

/-- C69 for the constants 2 and 3. -/
example : let r := (backwardMultiply noDomain .ibp (pointFull 2) (pointFull 3) (Back.identity : Back (Fin 1) (Fin 1) ℚ)).1
    r.wl default default 0 * 2 + r.bl default 0 ≤ 6 ∧ 6 ≤ r.wu default default 0 * 2 + r.bu default 0 := by
  have s : ∀ v, noDomain.Sound (pointFull v).x {fun _ => 0} := fun v p hp w b => by cases hp; simp [noDomain, affEval]
  exact C69_multiply_value_partial noDomain .ibp (pointFull 2) (pointFull 3) _ (s _) (s _) _ _ rfl (fun _ => 2) (fun _ => 3) (fun _ => 6)
    (pointFull_valid 2 _) (pointFull_valid 3 _) (by have e : (2 * 3 : ℚ) = 6 := by norm_num
                                                    rw [e]; exact back_identity _) 0

/-! ### Concatenate -/

/-- C70: bounds of the concatenation in terms of input `j` have weights of shape (entries of `j`, all entries).  With at least two
inputs, none of them empty, `BackwardConcatenate` never returns that shape: there are too few outputs. -/
theorem C70_concat_shape_refuted (sizes : List ℕ) (h2 : 2 ≤ sizes.length) (hpos : ∀ n ∈ sizes, 0 < n) (j : ℕ) :
    (backwardConcatShape sizes j).2 < sizes.sum ∧ backwardConcatShape sizes j ≠ (sizes.getD j 0, sizes.sum) := by
  have key : (backwardConcatShape sizes j).2 < sizes.sum := by
    obtain ⟨init, last, rfl⟩ : ∃ init last, sizes = init ++ [last] :=
      ⟨sizes.dropLast, sizes.getLast (by intro e; simp [e] at h2), (List.dropLast_append_getLast _).symm⟩
    have hi : 0 < init.sum := by
      cases init with
      | nil => simp at h2
      | cons a as =>
        have := hpos a (by simp)
        simp only [List.sum_cons]; omega
    have hn : concatIdentitySize (init ++ [last]) = last := by simp [concatIdentitySize]
    simp only [backwardConcatShape, hn, splitPiece, List.sum_append, List.sum_singleton]
    have : min last ((concatCuts (init ++ [last])).getD j last) ≤ last := min_le_left _ _
    omega
  exact ⟨key, fun e => by rw [e] at key; exact lt_irrefl _ key⟩

/-- C70: what the bounds returned for input `j` enclose: the entries of the *last* input at the positions of piece `j`, in terms of
the last input, whatever `j`. -/
theorem C70_concat_meaning (α : Type*) [Field α] [LinearOrder α] [IsStrictOrderedRing α] (sizes : List ℕ) (j : ℕ) (y : ℕ → α) :
    (backwardConcat sizes j : Back _ _ α).Holds (fun q => y q)
      (fun k => y ((splitPiece (concatIdentitySize sizes) (concatCuts sizes) j).1 + k)) := by
  intro k
  have hlt : (splitPiece (concatIdentitySize sizes) (concatCuts sizes) j).1 + (k : ℕ) < concatIdentitySize sizes := by
    have := k.2
    simp only [backwardConcatShape, splitPiece] at this ⊢
    omega
  have e : ∀ q : Fin (backwardConcatShape sizes j).1,
      ((q : ℕ) = (splitPiece (concatIdentitySize sizes) (concatCuts sizes) j).1 + (k : ℕ)) ↔
        q = ⟨(splitPiece (concatIdentitySize sizes) (concatCuts sizes) j).1 + (k : ℕ), hlt⟩ := fun q => by
    rw [Fin.ext_iff]
  simp [backwardConcat, affEval, e]

/-- C70: for a single input the concatenation is that input, and the bounds are right: square weights, exact.  Missing with respect to the
full claim: two inputs or more, refuted above. -/
theorem C70_concat_single_partial (α : Type*) [Field α] [LinearOrder α] [IsStrictOrderedRing α] (n : ℕ) (y : ℕ → α) :
    backwardConcatShape [n] 0 = (n, n) ∧ (backwardConcat [n] 0 : Back _ _ α).Holds (fun q => y q) (fun k => y k) := by
  constructor
  · simp [backwardConcatShape, concatIdentitySize, splitPiece, concatCuts]
  · simpa [splitPiece] using C70_concat_meaning α [n] 0 y

example : (backwardConcat [2, 3] 1 : Back _ _ ℚ).Holds (fun q => (q : ℚ))
    (fun k => (((splitPiece (concatIdentitySize [2, 3]) (concatCuts [2, 3]) 1).1 + k : ℕ) : ℚ)) := C70_concat_meaning ℚ [2, 3] 1 fun q => (q : ℚ)

example : backwardConcatShape [4] 0 = (4, 4) := (C70_concat_single_partial ℚ 4 fun q => q).1

/-- C70: sizes 2 and 3: for the first input `3 × 2` instead of `2 × 5`; for the second `3 × 1` instead of `3 × 5`. -/
example : backwardConcatShape [2, 3] 0 = (3, 2) ∧ backwardConcatShape [2, 3] 1 = (3, 1) := by decide +kernel

end Decomon
