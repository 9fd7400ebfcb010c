import Verif.SpecPool
import Verif.Props.Pooling

/-! Property C115: the layer `DecomonMaxPooling2D` with `fast=False`. -/

namespace Decomon

theorem convPos_eq_some {same : Bool} {size p s o i : ℕ} (a : Fin size) :
    convPos same size p s o i = some a ↔ (a : ℕ) + convPad same size p s = o * s + i := by
  unfold convPos
  split
  · next h =>
    rw [Option.some_inj]
    constructor
    · rintro rfl; simp; omega
    · intro e; apply Fin.ext; simp; omega
  · next h =>
    simp only [reduceCtorEq, false_iff]
    intro e
    exact h ⟨by omega, by have := a.2; omega⟩

theorem convPos_eq_none {same : Bool} {size p s o i : ℕ} :
    convPos same size p s o i = none ↔ o * s + i < convPad same size p s ∨ size ≤ o * s + i - convPad same size p s := by
  unfold convPos
  split
  · next h => simp; omega
  · next h => simp; omega

section
variable {H W C : ℕ} (c : PoolCfg)

theorem shift_eq : c.shift H W = (convPad c.same H c.p0 c.s0, convPad c.same W c.p1 c.s1) := by
  unfold PoolCfg.shift convPad convOut samePad
  cases c.same <;> simp

theorem entry_eq_some {k : Fin (convOut c.same H c.p0 c.s0) × Fin (convOut c.same W c.p1 c.s1) × Fin C} {i j : ℕ} (a : Fin H) (b : Fin W)
    (h : Fin C) : c.entry k i j = some (a, b, h) ↔ (a : ℕ) + convPad c.same H c.p0 c.s0 = k.1 * c.s0 + i ∧
      (b : ℕ) + convPad c.same W c.p1 c.s1 = k.2.1 * c.s1 + j ∧ k.2.2 = h := by
  unfold PoolCfg.entry
  rw [← convPos_eq_some, ← convPos_eq_some]
  cases convPos c.same H c.p0 c.s0 k.1 i <;> cases convPos c.same W c.p1 c.s1 k.2.1 j <;> simp

theorem entry_covers {k : Fin (convOut c.same H c.p0 c.s0) × Fin (convOut c.same W c.p1 c.s1) × Fin C} {i j : ℕ} (hi : i < c.p0)
    (hj : j < c.p1) (e : Fin H × Fin W × Fin C) (h : c.entry k i j = some e) : c.Covers H W k.1 k.2.1 e.1 e.2.1 ∧ e.2.2 = k.2.2 := by
  obtain ⟨a, b, ch⟩ := e
  rw [entry_eq_some] at h
  refine ⟨⟨i, hi, j, hj, ?_, ?_⟩, h.2.2.symm⟩
  · rw [shift_eq]; have := h.1; simp only; exact_mod_cast this
  · rw [shift_eq]; have := h.2.1; simp only; exact_mod_cast this

theorem entry_none {k : Fin (convOut c.same H c.p0 c.s0) × Fin (convOut c.same W c.p1 c.s1) × Fin C} {i j : ℕ} (hi : i < c.p0)
    (hj : j < c.p1) (h : c.entry k i j = none) : c.SticksOut H W k.1 k.2.1 := by
  refine ⟨k.1 * c.s0 + i - convPad c.same H c.p0 c.s0, k.2.1 * c.s1 + j - convPad c.same W c.p1 c.s1, ⟨i, hi, j, hj, ?_, ?_⟩, ?_⟩
  · rw [shift_eq]; simp
  · rw [shift_eq]; simp
  · rintro ⟨h1, h2, h3, h4⟩
    have n1 : convPos c.same H c.p0 c.s0 k.1 i ≠ none := by
      rw [Ne, convPos_eq_none]; push_cast at *; omega
    have n2 : convPos c.same W c.p1 c.s1 k.2.1 j ≠ none := by
      rw [Ne, convPos_eq_none]; push_cast at *; omega
    unfold PoolCfg.entry at h
    obtain ⟨a, ha⟩ := Option.ne_none_iff_exists'.mp n1
    obtain ⟨b, hb⟩ := Option.ne_none_iff_exists'.mp n2
    simp [ha, hb] at h

theorem entry_none_of_sticksOut {k : Fin (convOut c.same H c.p0 c.s0) × Fin (convOut c.same W c.p1 c.s1) × Fin C}
    (h : c.SticksOut H W k.1 k.2.1) : ∃ i < c.p0, ∃ j < c.p1, c.entry k i j = none := by
  obtain ⟨a, b, ⟨i, hi, j, hj, e1, e2⟩, hn⟩ := h
  rw [shift_eq] at e1 e2
  refine ⟨i, hi, j, hj, ?_⟩
  by_contra hc
  obtain ⟨⟨a', b', h'⟩, he⟩ := Option.ne_none_iff_exists'.mp hc
  obtain ⟨h1, h2, -⟩ := (entry_eq_some c _ _ _).mp he
  have := a'.2
  have := b'.2
  apply hn
  simp only at e1 e2
  push_cast at *
  omega

/-- Without padding no window sticks out, if the window fits in the image. -/
theorem not_sticksOut (hs : c.same = false) (hH : c.p0 ≤ H) (hW : c.p1 ≤ W) (o0 : Fin (convOut c.same H c.p0 c.s0))
    (o1 : Fin (convOut c.same W c.p1 c.s1)) : ¬ c.SticksOut H W o0 o1 := by
  rintro ⟨a, b, ⟨i, hi, j, hj, e1, e2⟩, hn⟩
  have h0 := o0.2
  have h1 := o1.2
  simp only [PoolCfg.shift, convOut, hs] at e1 e2 h0 h1
  simp only [Bool.false_eq_true, if_false] at e1 e2 h0 h1
  have g0 : (o0 : ℕ) * c.s0 ≤ H - c.p0 := (Nat.mul_le_mul_right _ (Nat.lt_succ_iff.mp h0)).trans (Nat.div_mul_le_self _ _)
  have g1 : (o1 : ℕ) * c.s1 ≤ W - c.p1 := (Nat.mul_le_mul_right _ (Nat.lt_succ_iff.mp h1)).trans (Nat.div_mul_le_self _ _)
  apply hn
  push_cast at *
  have g0' : (o0 : ℤ) * c.s0 ≤ H - c.p0 := by have := (Int.ofNat_le.mpr g0); push_cast [Nat.cast_sub hH] at this; exact this
  have g1' : (o1 : ℤ) * c.s1 ≤ W - c.p1 := by have := (Int.ofNat_le.mpr g1); push_cast [Nat.cast_sub hW] at this; exact this
  have p1 : (0:ℤ) ≤ (o0 : ℤ) * c.s0 := by positivity
  have p2 : (0:ℤ) ≤ (o1 : ℤ) * c.s1 := by positivity
  omega

end

section
variable {α : Type*} [Field α]

/-- Each channel is one entry of the window. -/
theorem poolChannel_eq (p0 p1 : ℕ) (h : p0 = p1 ∨ p0 = 1) (filters : ℕ → ℕ → ℕ → Bool) (hf : poolFilters p0 p1 = .ok filters)
    (x : ℕ → ℕ → α) (q : ℕ) (hq : q < p0 * p1) : poolChannel p0 p1 filters x q = x (q / p1) (q % p1) := by
  have h1 : 0 < p1 := Nat.pos_of_ne_zero fun e => by simp [e] at hq
  have h0 : 0 < p0 := Nat.pos_of_ne_zero fun e => by simp [e] at hq
  have hd : q / p1 < p0 := Nat.div_lt_of_lt_mul (by rwa [mul_comm] at hq)
  have hm : q % p1 < p1 := Nat.mod_lt _ h1
  obtain ⟨hr, hi⟩ := (C16_filters_ok_iff_partial p0 p1 h0 h1).mpr h
  have hc : filterChannel p0 (q / p1) (q % p1) = q := by
    unfold filterChannel
    rcases h with rfl | rfl
    · exact Nat.div_add_mod' q p0
    · rw [Nat.div_eq_of_lt (by omega), Nat.mod_eq_of_lt (by omega)]; omega
  unfold poolFilters at hf
  rw [if_pos hr] at hf
  obtain rfl := Except.ok.inj hf
  unfold poolChannel
  rw [Finset.sum_eq_single (q / p1), Finset.sum_eq_single (q % p1)]
  · simp [hd, hm, hc]
  · intro b hb hne
    rw [if_neg, zero_mul]
    simp only [hd, Finset.mem_range.mp hb, decide_true, Bool.and_true, decide_eq_true_eq, Bool.true_and]
    intro he
    exact hne (hi _ hd _ hm _ hd b (Finset.mem_range.mp hb) (hc.trans he)).2.symm
  · intro hn; exact absurd (Finset.mem_range.mpr hm) hn
  · intro b hb hne
    refine Finset.sum_eq_zero fun d hd' => ?_
    rw [if_neg, zero_mul]
    simp only [Finset.mem_range.mp hb, Finset.mem_range.mp hd', decide_true, Bool.and_true, decide_eq_true_eq, Bool.true_and]
    intro he
    exact hne (hi _ hd _ hm b (Finset.mem_range.mp hb) d (Finset.mem_range.mp hd') (hc.trans he)).1.symm
  · intro hn; exact absurd (Finset.mem_range.mpr hd) hn

end

section
variable {X ι α : Type*} [Fintype ι] [Field α] [LinearOrder α] [IsStrictOrderedRing α] {H W C : ℕ} (c : PoolCfg)

omit [Fintype ι] [LinearOrder α] [IsStrictOrderedRing α] in
theorem slice_add (filters : ℕ → ℕ → ℕ → Bool) (s t : Fin H × Fin W × Fin C → α)
    (q : (Fin (convOut c.same H c.p0 c.s0) × Fin (convOut c.same W c.p1 c.s1) × Fin C) × ℕ) :
    c.slice filters s q + c.slice filters t q = c.slice filters (fun e => s e + t e) q := by
  simp only [PoolCfg.slice, poolChannel, ← Finset.sum_add_distrib, ← mul_add]
  refine Finset.sum_congr rfl fun i _ => Finset.sum_congr rfl fun j _ => ?_
  cases c.entry q.1 i j <;> simp

omit [Fintype ι] [LinearOrder α] [IsStrictOrderedRing α] in
theorem slice_mul (filters : ℕ → ℕ → ℕ → Bool) (a : α) (t : Fin H × Fin W × Fin C → α)
    (q : (Fin (convOut c.same H c.p0 c.s0) × Fin (convOut c.same W c.p1 c.s1) × Fin C) × ℕ) :
    c.slice filters t q * a = c.slice filters (fun e => t e * a) q := by
  simp only [PoolCfg.slice, poolChannel, Finset.sum_mul]
  refine Finset.sum_congr rfl fun i _ => Finset.sum_congr rfl fun j _ => ?_
  cases c.entry q.1 i j <;> simp [mul_assoc]

omit [IsStrictOrderedRing α] in
theorem slice_sum (filters : ℕ → ℕ → ℕ → Bool) (t : ι → Fin H × Fin W × Fin C → α)
    (q : (Fin (convOut c.same H c.p0 c.s0) × Fin (convOut c.same W c.p1 c.s1) × Fin C) × ℕ) :
    ∑ i, c.slice filters (t i) q = c.slice filters (fun e => ∑ i, t i e) q := by
  simp only [PoolCfg.slice, poolChannel]
  rw [Finset.sum_comm]
  refine Finset.sum_congr rfl fun i _ => ?_
  rw [Finset.sum_comm]
  refine Finset.sum_congr rfl fun j _ => ?_
  cases c.entry q.1 i j <;> simp [Finset.mul_sum]

omit [Fintype ι] in
theorem slice_mono (filters : ℕ → ℕ → ℕ → Bool) {s t : Fin H × Fin W × Fin C → α} (h : ∀ e, s e ≤ t e)
    (q : (Fin (convOut c.same H c.p0 c.s0) × Fin (convOut c.same W c.p1 c.s1) × Fin C) × ℕ) :
    c.slice filters s q ≤ c.slice filters t q := by
  simp only [PoolCfg.slice, poolChannel]
  refine Finset.sum_le_sum fun i _ => Finset.sum_le_sum fun j _ => mul_le_mul_of_nonneg_left ?_ ?_
  · cases c.entry q.1 i j
    · simp
    · simpa using h _
  · split <;> simp

/-- The slices bound the slices of the value, whatever the filters. -/
theorem slices_valid (m : Mode) (dc : Bool) (filters : ℕ → ℕ → ℕ → Bool) (f : Full X ι (Fin H × Fin W × Fin C) α) (p : ι → α)
    (y : Fin H × Fin W × Fin C → α) (v : Valid m dc f p y) : Valid m dc (c.slices filters f) p (c.slice filters y) := by
  refine ⟨fun hi q => ⟨slice_mono c filters (fun e => (v.const hi e).1) q, slice_mono c filters (fun e => (v.const hi e).2) q⟩,
    fun ha q => ?_, fun hd q => ?_⟩
  · have key : ∀ (w : ι → Fin H × Fin W × Fin C → α) (b : Fin H × Fin W × Fin C → α),
        affEval (fun i => c.slice filters (w i) q) (c.slice filters b q) p = c.slice filters (fun e => affEval (fun i => w i e) (b e) p) q := by
      intro w b
      simp only [affEval, slice_mul, slice_sum, slice_add]
    constructor
    · exact (key f.wl f.bl).le.trans (slice_mono c filters (fun e => (v.aff ha e).1) q)
    · exact (slice_mono c filters (fun e => (v.aff ha e).2) q).trans (key f.wu f.bu).ge
  · exact (slice_add c filters f.h f.g q).trans (congrArg (fun t => c.slice filters t q) (funext fun e => v.dc hd e))

omit [Fintype ι] in
/-- The largest slice is the max pooling, provided that zero does not exceed it in the windows that stick out. -/
theorem slices_max (hp : c.p0 = c.p1 ∨ c.p0 = 1) (h0 : 0 < c.p0) (h1 : 0 < c.p1) (filters : ℕ → ℕ → ℕ → Bool)
    (hf : poolFilters c.p0 c.p1 = .ok filters) (y : Fin H × Fin W × Fin C → α)
    (z : Fin (convOut c.same H c.p0 c.s0) × Fin (convOut c.same W c.p1 c.s1) × Fin C → α) (hz : c.IsMaxPool y z)
    (k : Fin (convOut c.same H c.p0 c.s0) × Fin (convOut c.same W c.p1 c.s1) × Fin C)
    (hk : c.SticksOut H W k.1 k.2.1 → 0 ≤ z k) :
    (maxOver fun i : Fin (c.p0 * c.p1 - 1 + 1) => c.slice filters y (k, i.val)) = z k := by
  have hpos : 0 < c.p0 * c.p1 := Nat.mul_pos h0 h1
  have ev : ∀ q < c.p0 * c.p1, c.slice filters y (k, q) = (c.entry k (q / c.p1) (q % c.p1)).elim 0 y := fun q hq => by
    unfold PoolCfg.slice
    rw [poolChannel_eq c.p0 c.p1 hp filters hf _ q hq]
  apply le_antisymm
  · refine maxOver_le fun i => ?_
    have hi : i.val < c.p0 * c.p1 := by have := i.2; omega
    rw [ev _ hi]
    have a1 : i.val / c.p1 < c.p0 := Nat.div_lt_of_lt_mul (lt_of_lt_of_eq hi (mul_comm _ _))
    have a2 : i.val % c.p1 < c.p1 := Nat.mod_lt _ h1
    cases he : c.entry k (i.val / c.p1) (i.val % c.p1) with
    | none => exact hk (entry_none c a1 a2 he)
    | some e =>
      obtain ⟨hc, he2⟩ := entry_covers c a1 a2 e he
      exact (hz k).2 ⟨e.1, e.2.1, hc, by simp [← he2]⟩
  · obtain ⟨a, b, ⟨i, hi, j, hj, e1, e2⟩, hv⟩ := (hz k).1
    rw [shift_eq] at e1 e2
    simp only at e1 e2
    have he : c.entry k i j = some (a, b, k.2.2) := (entry_eq_some c _ _ _).mpr ⟨by exact_mod_cast e1, by exact_mod_cast e2, rfl⟩
    have hq : i * c.p1 + j < c.p0 * c.p1 := by
      have : (i + 1) * c.p1 ≤ c.p0 * c.p1 := Nat.mul_le_mul_right _ hi
      rw [Nat.add_mul] at this
      omega
    have d1 : (i * c.p1 + j) / c.p1 = i := by
      rw [mul_comm, Nat.mul_add_div h1, Nat.div_eq_of_lt hj, add_zero]
    have d2 : (i * c.p1 + j) % c.p1 = j := by
      rw [mul_comm, Nat.mul_add_mod, Nat.mod_eq_of_lt hj]
    refine le_trans (le_of_eq ?_) (le_maxOver _ (⟨i * c.p1 + j, by omega⟩ : Fin (c.p0 * c.p1 - 1 + 1)))
    rw [ev _ hq, d1, d2, he, hv]
    rfl

/-- C115: for square windows and windows of height one, the layer bounds the max pooling, with any strides and in every mode, and `h + g`
is the max pooling when `dc_decomp` is set.  Missing with respect to the full claim: windows of another shape (refuted below), windows
that stick out of the image over negative entries (refuted below), and the sliver of the ReLU hull in affine and hybrid mode (C63). -/
theorem C115_pool_partial (D : PertDomain X ι α) (m : Mode) (dc : Bool) (eps : α) (he : 0 < eps) (hp : c.p0 = c.p1 ∨ c.p0 = 1)
    (h0 : 0 < c.p0) (h1 : 0 < c.p1) (f : Full X ι (Fin H × Fin W × Fin C) α) (R : Set (ι → α)) (hD : D.Sound f.x R) (p : ι → α)
    (hpR : p ∈ R) (y : Fin H × Fin W × Fin C → α) (v : Valid m dc f p y)
    (z : Fin (convOut c.same H c.p0 c.s0) × Fin (convOut c.same W c.p1 c.s1) × Fin C → α) (hz : c.IsMaxPool y z)
    (hk : ∀ k, c.SticksOut H W k.1 k.2.1 → 0 ≤ z k)
    (hs : ∀ filters, poolFilters c.p0 c.p1 = .ok filters → FoldSliverFree D m eps ((c.slices filters f).reindex fun k => (k, 0))
      (List.ofFn fun i : Fin (c.p0 * c.p1 - 1) => (c.slices filters f).reindex fun k => (k, i.val + 1))) :
    ∃ out, maxPoolNotFast D m dc eps c f = .ok out ∧ Valid m dc out p z := by
  obtain ⟨filters, hf⟩ : ∃ filters, poolFilters c.p0 c.p1 = .ok filters :=
    ⟨_, if_pos ((C16_filters_ok_iff_partial c.p0 c.p1 h0 h1).mpr hp).1⟩
  refine ⟨_, by rw [maxPoolNotFast, hf]; rfl, ?_⟩
  have a := C63_max_valid_partial D m dc eps he
    (fun (k : Fin (convOut c.same H c.p0 c.s0) × Fin (convOut c.same W c.p1 c.s1) × Fin C) (i : Fin (c.p0 * c.p1 - 1 + 1)) => (k, i.val))
    (c.slices filters f) R hD p hpR _ (slices_valid c m dc filters f p y v) (hs filters hf)
  rwa [show (fun k => maxOver fun i : Fin (c.p0 * c.p1 - 1 + 1) => c.slice filters y (k, i.val)) = z from
    funext fun k => slices_max c hp h0 h1 filters hf y z hz k (hk k)] at a

theorem poolSliverFree_ibp {κ : Type*} (D : PertDomain X ι α) (eps : α) (l : List (Full X ι κ α)) (a : Full X ι κ α) :
    FoldSliverFree D .ibp eps a l := by
  induction l generalizing a with
  | nil => trivial
  | cons b l ih => exact ⟨by simp [SliverFree, getAffine], ih _⟩

/-- C115: in ibp mode, without padding (`"valid"`), no hypothesis on the bounds is needed. -/
theorem C115_valid_padding_ibp (D : PertDomain X ι α) (dc : Bool) (eps : α) (he : 0 < eps) (hp : c.p0 = c.p1 ∨ c.p0 = 1)
    (h0 : 0 < c.p0) (h1 : 0 < c.p1) (hs : c.same = false) (hH : c.p0 ≤ H) (hW : c.p1 ≤ W)
    (f : Full X ι (Fin H × Fin W × Fin C) α) (R : Set (ι → α)) (hD : D.Sound f.x R) (p : ι → α)
    (hpR : p ∈ R) (y : Fin H × Fin W × Fin C → α) (v : Valid .ibp dc f p y)
    (z : Fin (convOut c.same H c.p0 c.s0) × Fin (convOut c.same W c.p1 c.s1) × Fin C → α) (hz : c.IsMaxPool y z) :
    ∃ out, maxPoolNotFast D .ibp dc eps c f = .ok out ∧ Valid .ibp dc out p z :=
  C115_pool_partial c D .ibp dc eps he hp h0 h1 f R hD p hpR y v z hz
    (fun k h => absurd h (not_sticksOut c hs hH hW k.1 k.2.1)) fun _ _ => poolSliverFree_ibp D eps _ _

/-- C115: in ibp mode, with any padding, on an image with no negative entry, as after a ReLU. -/
theorem C115_nonnegative_ibp (D : PertDomain X ι α) (dc : Bool) (eps : α) (he : 0 < eps) (hp : c.p0 = c.p1 ∨ c.p0 = 1)
    (h0 : 0 < c.p0) (h1 : 0 < c.p1) (f : Full X ι (Fin H × Fin W × Fin C) α) (R : Set (ι → α)) (hD : D.Sound f.x R) (p : ι → α)
    (hpR : p ∈ R) (y : Fin H × Fin W × Fin C → α) (hy : ∀ e, 0 ≤ y e) (v : Valid .ibp dc f p y)
    (z : Fin (convOut c.same H c.p0 c.s0) × Fin (convOut c.same W c.p1 c.s1) × Fin C → α) (hz : c.IsMaxPool y z) :
    ∃ out, maxPoolNotFast D .ibp dc eps c f = .ok out ∧ Valid .ibp dc out p z :=
  C115_pool_partial c D .ibp dc eps he hp h0 h1 f R hD p hpR y v z hz
    (fun k _ => by obtain ⟨a, b, -, e⟩ := (hz k).1; rw [e]; exact hy _) fun _ _ => poolSliverFree_ibp D eps _ _

/-- C115: with `padding="same"`, the bounds in ibp mode are right exactly when no negative maximum is taken over a window that sticks out
of the image: such windows are completed with zeros, so the lower bound is never negative there. -/
theorem C115_same_padding_iff (D : PertDomain X ι α) (eps : α) (he : 0 < eps) (hp : c.p0 = c.p1 ∨ c.p0 = 1)
    (h0 : 0 < c.p0) (h1 : 0 < c.p1) (f : Full X ι (Fin H × Fin W × Fin C) α) (R : Set (ι → α)) (hD : D.Sound f.x R) (p : ι → α)
    (hpR : p ∈ R) (y : Fin H × Fin W × Fin C → α) (v : Valid .ibp false f p y)
    (z : Fin (convOut c.same H c.p0 c.s0) × Fin (convOut c.same W c.p1 c.s1) × Fin C → α) (hz : c.IsMaxPool y z) :
    ∃ out, maxPoolNotFast D .ibp false eps c f = .ok out ∧
      (Valid .ibp false out p z ↔ ∀ k, c.SticksOut H W k.1 k.2.1 → 0 ≤ z k) := by
  obtain ⟨filters, hf⟩ : ∃ filters, poolFilters c.p0 c.p1 = .ok filters :=
    ⟨_, if_pos ((C16_filters_ok_iff_partial c.p0 c.p1 h0 h1).mpr hp).1⟩
  refine ⟨_, by rw [maxPoolNotFast, hf]; rfl, fun hv k hk => ?_, fun h => ?_⟩
  · obtain ⟨i, hi, j, hj, e⟩ := entry_none_of_sticksOut c hk
    have hq : i * c.p1 + j < c.p0 * c.p1 := by
      have : (i + 1) * c.p1 ≤ c.p0 * c.p1 := Nat.mul_le_mul_right _ hi
      rw [Nat.add_mul] at this
      omega
    have d1 : (i * c.p1 + j) / c.p1 = i := by rw [mul_comm, Nat.mul_add_div h1, Nat.div_eq_of_lt hj, add_zero]
    have d2 : (i * c.p1 + j) % c.p1 = j := by rw [mul_comm, Nat.mul_add_mod, Nat.mod_eq_of_lt hj]
    refine le_trans ?_ (hv.const rfl k).1
    refine le_trans (le_of_eq ?_) ((C63_max_ibp_exact D eps
      (fun (k : Fin (convOut c.same H c.p0 c.s0) × Fin (convOut c.same W c.p1 c.s1) × Fin C) (i : Fin (c.p0 * c.p1 - 1 + 1)) => (k, i.val))
      (c.slices filters f) k).2.2.2 ⟨i * c.p1 + j, by omega⟩)
    change 0 = c.slice filters f.lc (k, i * c.p1 + j)
    unfold PoolCfg.slice
    rw [poolChannel_eq c.p0 c.p1 hp filters hf _ _ hq, d1, d2, e]
    rfl
  · obtain ⟨out, ho, hv⟩ := C115_pool_partial c D .ibp false eps he hp h0 h1 f R hD p hpR y v z hz h fun _ _ => poolSliverFree_ibp D eps _ _
    rw [maxPoolNotFast, hf] at ho
    rw [← Except.ok.inj ho] at hv
    exact hv

/-- C115: a window that is higher than wide raises `IndexError` (already in the constructor, whatever `fast`). -/
theorem C115_tall_refuted (D : PertDomain X ι α) (m : Mode) (dc : Bool) (eps : α) (h1 : 0 < c.p1) (h : c.p1 < c.p0)
    (f : Full X ι (Fin H × Fin W × Fin C) α) : maxPoolNotFast D m dc eps c f = .error .indexError := by
  rw [maxPoolNotFast, C16_index_error_refuted c.p0 c.p1 h1 h]; rfl

/-- C115: a window that is wider than high, of at least two rows, gives a lower bound of at least 2 on an image of ones, whose max pooling
is 1 everywhere. -/
theorem C115_wide_refuted (D : PertDomain X ι α) (eps : α) (h0 : 2 ≤ c.p0) (h : c.p0 < c.p1) (hs : c.same = false) (hH : c.p0 ≤ H)
    (hW : c.p1 ≤ W) (f : Full X ι (Fin H × Fin W × Fin C) α) (hf : ∀ e, f.lc e = 1)
    (k : Fin (convOut c.same H c.p0 c.s0) × Fin (convOut c.same W c.p1 c.s1) × Fin C) :
    ∃ out, maxPoolNotFast D .ibp false eps c f = .ok out ∧ 2 ≤ out.lc k := by
  obtain ⟨filters, hF, t1, t2⟩ := C16_collision_refuted c.p0 c.p1 h0 h
  refine ⟨_, by rw [maxPoolNotFast, hF]; rfl, ?_⟩
  have hq : c.p0 < c.p0 * c.p1 := by nlinarith
  refine le_trans ?_ ((C63_max_ibp_exact D eps
      (fun (k : Fin (convOut c.same H c.p0 c.s0) × Fin (convOut c.same W c.p1 c.s1) × Fin C) (i : Fin (c.p0 * c.p1 - 1 + 1)) => (k, i.val))
      (c.slices filters f) k).2.2.2 ⟨c.p0, by omega⟩)
  change 2 ≤ c.slice filters f.lc (k, c.p0)
  have hone : ∀ i < c.p0, ∀ j < c.p1, (c.entry k i j).elim 0 f.lc = 1 := by
    intro i hi j hj
    cases he : c.entry k i j with
    | none => exact absurd (entry_none c hi hj he) (not_sticksOut c hs hH hW k.1 k.2.1)
    | some e => exact hf e
  have hnn : ∀ i < c.p0, ∀ j < c.p1, 0 ≤ (if filters i j c.p0 then (1:α) else 0) * (c.entry k i j).elim 0 f.lc := by
    intro i hi j hj
    rw [hone i hi j hj]; split <;> simp
  unfold PoolCfg.slice poolChannel
  have r0 : (1:α) ≤ ∑ j ∈ Finset.range c.p1, (if filters 0 j c.p0 then (1:α) else 0) * (c.entry k 0 j).elim 0 f.lc := by
    refine le_trans ?_ (Finset.single_le_sum (fun j hj => hnn 0 (by omega) j (Finset.mem_range.mp hj)) (Finset.mem_range.mpr h))
    rw [hone 0 (by omega) _ h, t1]; simp
  have r1 : (1:α) ≤ ∑ j ∈ Finset.range c.p1, (if filters 1 j c.p0 then (1:α) else 0) * (c.entry k 1 j).elim 0 f.lc := by
    refine le_trans ?_ (Finset.single_le_sum (fun j hj => hnn 1 (by omega) j (Finset.mem_range.mp hj))
      (Finset.mem_range.mpr (by omega : 0 < c.p1)))
    rw [hone 1 (by omega) _ (by omega), t2]; simp
  have hsub : ({0, 1} : Finset ℕ) ⊆ Finset.range c.p0 := by
    intro x hx
    simp only [Finset.mem_insert, Finset.mem_singleton] at hx
    exact Finset.mem_range.mpr (by omega)
  refine le_trans ?_ (Finset.sum_le_sum_of_subset_of_nonneg hsub fun i hi _ =>
    Finset.sum_nonneg fun j hj => hnn i (Finset.mem_range.mp hi) j (Finset.mem_range.mp hj))
  rw [Finset.sum_pair (by norm_num)]
  linarith

end

/-- An image of size 3×3 with one channel and known entries. -/
def knownImage (y : Fin 3 × Fin 3 × Fin 1 → ℚ) : Full ((Fin 1 → ℚ) × (Fin 1 → ℚ)) (Fin 1) (Fin 3 × Fin 3 × Fin 1) ℚ :=
  ⟨(fun _ => 0, fun _ => 1), y, fun _ _ => 0, y, y, fun _ _ => 0, y, y, fun _ => 0⟩

theorem knownImage_valid (m : Mode) (dc : Bool) (y : Fin 3 × Fin 3 × Fin 1 → ℚ) (p : Fin 1 → ℚ) : Valid m dc (knownImage y) p y :=
  ⟨fun _ _ => ⟨le_rfl, le_rfl⟩, fun _ _ => by simp [knownImage, affEval], fun _ _ => by simp [knownImage]⟩

/-- Windows 2×2 with strides 2. -/
def pool22 (same : Bool) : PoolCfg := ⟨2, 2, 2, 2, same⟩

theorem pool22_const (same : Bool) (v : ℚ) : (pool22 same).IsMaxPool (H := 3) (W := 3) (C := 1)
    (Ho := convOut same 3 2 2) (Wo := convOut same 3 2 2) (fun _ => v) (fun _ => v) := by
  intro k
  refine ⟨⟨⟨2 * k.1.val, ?_⟩, ⟨2 * k.2.1.val, ?_⟩, ⟨0, two_pos, 0, two_pos, ?_, ?_⟩, rfl⟩, ?_⟩
  · have h : k.1.val < 2 := lt_of_lt_of_le k.1.2 (by cases same <;> decide)
    omega
  · have h : k.2.1.val < 2 := lt_of_lt_of_le k.2.1.2 (by cases same <;> decide)
    omega
  · cases same <;> simp [pool22, PoolCfg.shift, samePad, mul_comm]
  · cases same <;> simp [pool22, PoolCfg.shift, samePad, mul_comm]
  · rintro w ⟨a, b, -, rfl⟩; exact le_rfl

/-- C115: windows 2×2 with strides 2 and `padding="same"` on an image of size 3×3 whose entries are all -1: the bounds are wrong. -/
theorem C115_same_padding_refuted (eps : ℚ) (he : 0 < eps) (p : Fin 1 → ℚ) (hp : p ∈ Box (fun _ : Fin 1 => (0:ℚ)) (fun _ => 1)) :
    ∃ out, maxPoolNotFast boxDomain .ibp false eps (pool22 true) (knownImage fun _ => -1) = .ok out ∧
      ¬ Valid .ibp false out p (fun _ => -1) := by
  obtain ⟨out, ho, h⟩ := C115_same_padding_iff (pool22 true) boxDomain eps he (Or.inl rfl) (by decide) (by decide)
    (knownImage fun _ => -1) _ (boxDomain_sound _ _) p hp _ (knownImage_valid _ _ _ p) _ (pool22_const true (-1))
  refine ⟨out, ho, fun hv => ?_⟩
  have := h.mp hv (⟨1, by decide⟩, ⟨1, by decide⟩, 0) ⟨3, 3, ⟨1, by decide, 1, by decide, by decide, by decide⟩, by decide⟩
  norm_num at this

/-- Non-vacuity of C115: the same image without padding, in ibp mode with a difference-of-convex decomposition. -/
example (p : Fin 1 → ℚ) (hp : p ∈ Box (fun _ : Fin 1 => (0:ℚ)) (fun _ => 1)) :
    ∃ out, maxPoolNotFast boxDomain .ibp true (1 / 10) (pool22 false) (knownImage fun _ => -1) = .ok out ∧
      Valid .ibp true out p (fun _ => -1) :=
  C115_valid_padding_ibp (pool22 false) boxDomain true (1 / 10) (by norm_num) (Or.inl rfl) (by decide) (by decide) rfl (by decide)
    (by decide) (knownImage fun _ => -1) _ (boxDomain_sound _ _) p hp _ (knownImage_valid _ _ _ p) _ (pool22_const false (-1))

/-- Non-vacuity of C115: `padding="same"` on an image of twos. -/
example (p : Fin 1 → ℚ) (hp : p ∈ Box (fun _ : Fin 1 => (0:ℚ)) (fun _ => 1)) :
    ∃ out, maxPoolNotFast boxDomain .ibp false (1 / 10) (pool22 true) (knownImage fun _ => 2) = .ok out ∧
      Valid .ibp false out p (fun _ => 2) :=
  C115_nonnegative_ibp (pool22 true) boxDomain false (1 / 10) (by norm_num) (Or.inl rfl) (by decide) (by decide)
    (knownImage fun _ => 2) _ (boxDomain_sound _ _) p hp _ (fun _ => by norm_num) (knownImage_valid _ _ _ p) _ (pool22_const true 2)

/-- The values of a 2×2 pooling of `0 … 8`, strides 1, without padding: `4, 5, 7, 8`. -/
example : (maxPoolNotFast boxDomain .ibp false (1 / 10) ⟨2, 2, 1, 1, false⟩ (knownImage fun e => 3 * e.1.val + e.2.1.val)).toOption.map
    (fun out => (out.lc (⟨0, by decide⟩, ⟨0, by decide⟩, 0), out.uc (⟨0, by decide⟩, ⟨1, by decide⟩, 0), out.lc (⟨1, by decide⟩, ⟨0, by decide⟩, 0), out.uc (⟨1, by decide⟩, ⟨1, by decide⟩, 0))) = some (4, 5, 7, 8) := by decide +kernel

/-- Non-vacuity of `C115_wide_refuted` and `C115_tall_refuted`: windows 2×3 and 3×2 on the image of ones. -/
example : (maxPoolNotFast boxDomain .ibp false (1 / 10) ⟨2, 3, 1, 1, false⟩ (knownImage fun _ => 1)).toOption.map
      (fun out => out.lc (⟨0, by decide⟩, ⟨0, by decide⟩, 0)) = some 2 ∧
    (maxPoolNotFast boxDomain .ibp false (1 / 10) ⟨3, 2, 1, 1, false⟩ (knownImage fun _ => 1)).toOption.isNone = true := by
  decide +kernel

end Decomon
