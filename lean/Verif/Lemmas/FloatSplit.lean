import Verif.Lemmas.Wrapper
import Verif.Lemmas.FloatCrown
import Verif.Model.FloatSplit
import Verif.Props.FloatCrown

/-!
Lemmas for C156: the boxes that `refine_boxes` and `refine_box` compute in rounded arithmetic, and the conversion of their corners.
-/

namespace Decomon

section
variable {ι α : Type} [Field α] [LinearOrder α]

theorem mem_halves [DecidableEq ι] [Fintype ι] (rd : α → α) (b : BoxOf ι α) (j : ι) (p : ι → α) (hp : p ∈ Box b.1 b.2) :
    p ∈ Box (lowRounded rd b j).1 (lowRounded rd b j).2 ∨ p ∈ Box (highRounded rd b j).1 (highRounded rd b j).2 := by
  rcases le_total (p j) (midRounded rd b j) with h | h
  · left
    intro i
    refine ⟨(hp i).1, ?_⟩
    by_cases e : i = j
    · subst e; simpa [lowRounded] using h
    · simpa [lowRounded, e] using (hp i).2
  · right
    intro i
    refine ⟨?_, (hp i).2⟩
    by_cases e : i = j
    · subst e; simpa [highRounded] using h
    · simpa [highRounded, e] using (hp i).1

variable {n : ℕ}

theorem cover_split (rd : α → α) (bs : List (BoxOf (Fin (n + 1)) α)) (p : Fin (n + 1) → α) (h : ∃ c ∈ bs, p ∈ Box c.1 c.2) :
    ∃ c ∈ splitRounded rd bs, p ∈ Box c.1 c.2 := by
  obtain ⟨c, hc, hp⟩ := h
  rcases mem_halves rd c (argmax (widthRounded rd c)) p hp with h1 | h1
  · exact ⟨_, List.mem_append_left _ (List.mem_map.2 ⟨c, hc, rfl⟩), h1⟩
  · exact ⟨_, List.mem_append_right _ (List.mem_map.2 ⟨c, hc, rfl⟩), h1⟩

theorem cover_loop (rd : α → α) (fuel nSub : ℕ) (bs : List (BoxOf (Fin (n + 1)) α)) (p : Fin (n + 1) → α) (h : ∃ c ∈ bs, p ∈ Box c.1 c.2) :
    ∃ c ∈ refineLoopRounded rd fuel nSub bs, p ∈ Box c.1 c.2 := by
  induction fuel generalizing bs with
  | zero => exact h
  | succ f ih =>
    simp only [refineLoopRounded]
    split
    · exact ih _ (cover_split rd bs p h)
    · exact h

theorem cover_step [DecidableEq ι] [Fintype ι] (rd : α → α) (bs : List (BoxOf ι α)) (i : ℕ) (j : ι) (p : ι → α) (h : ∃ c ∈ bs, p ∈ Box c.1 c.2) :
    ∃ c ∈ stepRounded rd bs i j, p ∈ Box c.1 c.2 := by
  unfold stepRounded
  split
  · rename_i b hb
    obtain ⟨c, hc, hp⟩ := h
    obtain ⟨hi, hb⟩ := List.getElem?_eq_some_iff.1 hb
    obtain ⟨k, hk, rfl⟩ := List.getElem_of_mem hc
    by_cases e : k = i
    · subst e
      rw [hb] at hp
      rcases mem_halves rd b j p hp with h1 | h1
      · exact ⟨_, List.mem_append_left _ (List.mem_set hi _), h1⟩
      · exact ⟨_, List.mem_append_right _ (List.mem_singleton.2 rfl), h1⟩
    · refine ⟨bs[k], List.mem_append_left _ ?_, hp⟩
      refine List.mem_iff_getElem.2 ⟨k, by simpa using hk, ?_⟩
      rw [List.getElem_set_ne (fun h => e h.symm)]
  · exact h

theorem cover_box_loop (rd : α → α) (fuel nSplit : ℕ) (bs : List (BoxOf (Fin (n + 1)) α)) (ws : List (Fin (n + 1) → α)) (p : Fin (n + 1) → α)
    (h : ∃ c ∈ bs, p ∈ Box c.1 c.2) : ∃ c ∈ refineBoxLoopRounded rd fuel nSplit bs ws, p ∈ Box c.1 c.2 := by
  induction fuel generalizing bs ws with
  | zero => exact h
  | succ f ih =>
    simp only [refineBoxLoopRounded]
    split
    · split
      · exact h
      · exact ih _ _ (cover_step rd bs _ _ p h)
    · exact h

/-! ### The boxes stay in the box -/

/-- What binary formats satisfy without overflow: the rounding preserves the order, its results are kept, and so are their doubles. -/
structure Binary (rd : α → α) : Prop where
  mono : Monotone rd
  idem : ∀ x, rd (rd x) = rd x
  double : ∀ x, rd x = x → rd (2 * x) = 2 * x

/-- The corners are numbers of the format. -/
def InFormat (rd : α → α) (b : BoxOf ι α) : Prop := ∀ i, rd (b.1 i) = b.1 i ∧ rd (b.2 i) = b.2 i

variable [IsStrictOrderedRing α]

theorem mid_between {rd : α → α} (h : Binary rd) {b : BoxOf ι α} (hb : GoodBox b) (hf : InFormat rd b) (j : ι) :
    b.1 j ≤ midRounded rd b j ∧ midRounded rd b j ≤ b.2 j := by
  have h0 := hb j
  constructor
  · have h1 : 2 * b.1 j ≤ rd (b.1 j + b.2 j) := by
      rw [← h.double _ (hf j).1]; exact h.mono (by linarith)
    have h2 := h.mono (show b.1 j ≤ rd (b.1 j + b.2 j) / 2 by linarith)
    rwa [(hf j).1] at h2
  · have h1 : rd (b.1 j + b.2 j) ≤ 2 * b.2 j := by
      rw [← h.double _ (hf j).2]; exact h.mono (by linarith)
    have h2 := h.mono (show rd (b.1 j + b.2 j) / 2 ≤ b.2 j by linarith)
    rwa [(hf j).2] at h2

/-- A box of the format with ordered corners, inside `b`. -/
def Part (rd : α → α) (b c : BoxOf ι α) : Prop := GoodBox c ∧ InFormat rd c ∧ SubBox c b

theorem part_halves [DecidableEq ι] {rd : α → α} (h : Binary rd) {b c : BoxOf ι α} (hc : Part rd b c) (j : ι) :
    Part rd b (lowRounded rd c j) ∧ Part rd b (highRounded rd c j) := by
  obtain ⟨h1, h2, h3⟩ := hc
  obtain ⟨m1, m2⟩ := mid_between h h1 h2 j
  have mf : rd (midRounded rd c j) = midRounded rd c j := h.idem _
  refine ⟨⟨fun i => ?_, fun i => ?_, fun i => ?_⟩, ⟨fun i => ?_, fun i => ?_, fun i => ?_⟩⟩ <;> by_cases e : i = j
  · subst e; simpa [lowRounded] using m1
  · simpa [lowRounded, e] using h1 i
  · subst e; simpa [lowRounded, mf] using (h2 i).1
  · simpa [lowRounded, e] using h2 i
  · subst e; simpa [lowRounded] using ⟨(h3 i).1, m2.trans (h3 i).2⟩
  · simpa [lowRounded, e] using h3 i
  · subst e; simpa [highRounded] using m2
  · simpa [highRounded, e] using h1 i
  · subst e; simpa [highRounded, mf] using (h2 i).2
  · simpa [highRounded, e] using h2 i
  · subst e; simpa [highRounded] using ⟨(h3 i).1.trans m1, (h3 i).2⟩
  · simpa [highRounded, e] using h3 i

theorem part_loop {rd : α → α} (h : Binary rd) {b : BoxOf (Fin (n + 1)) α} (fuel nSub : ℕ) (bs : List (BoxOf (Fin (n + 1)) α)) (hbs : ∀ c ∈ bs, Part rd b c) :
    ∀ c ∈ refineLoopRounded rd fuel nSub bs, Part rd b c := by
  induction fuel generalizing bs with
  | zero => exact hbs
  | succ f ih =>
    simp only [refineLoopRounded]
    split
    · refine ih _ fun c hc => ?_
      simp only [splitRounded, List.mem_append, List.mem_map] at hc
      rcases hc with ⟨a, ha, rfl⟩ | ⟨a, ha, rfl⟩
      · exact (part_halves h (hbs a ha) _).1
      · exact (part_halves h (hbs a ha) _).2
    · exact hbs

theorem part_box_loop {rd : α → α} (h : Binary rd) {b : BoxOf (Fin (n + 1)) α} (fuel nSplit : ℕ) (bs : List (BoxOf (Fin (n + 1)) α))
    (ws : List (Fin (n + 1) → α)) (hbs : ∀ c ∈ bs, Part rd b c) : ∀ c ∈ refineBoxLoopRounded rd fuel nSplit bs ws, Part rd b c := by
  induction fuel generalizing bs ws with
  | zero => exact hbs
  | succ f ih =>
    simp only [refineBoxLoopRounded]
    split
    · split
      · exact hbs
      · refine ih _ _ fun c hc => ?_
        unfold stepRounded at hc
        split at hc
        · rename_i d hd
          have hd := hbs d (List.mem_of_getElem? hd)
          rcases List.mem_append.1 hc with hc | hc
          · rcases List.mem_or_eq_of_mem_set hc with hc | rfl
            · exact hbs c hc
            · exact (part_halves h hd _).1
          · rw [List.mem_singleton.1 hc]
            exact (part_halves h hd _).2
        · exact hbs c hc
    · exact hbs

end

/-! ### The conversion of the corners -/

section
variable {ι κ α : Type} [Fintype ι] [Field α] [LinearOrder α] [IsStrictOrderedRing α] {δ : α} {cv : α → α}

theorem cast_mem (hc : Conversion cv δ) {b : BoxOf ι α} {p : ι → α} (hp : p ∈ Box b.1 b.2) :
    (fun i => cv (p i)) ∈ Box (castBox cv b).1 (castBox cv b).2 := fun i => ⟨hc.mono (hp i).1, hc.mono (hp i).2⟩

omit [Fintype ι] in
theorem cast_peak (hδ1 : δ < 1) (hc : Conversion cv δ) (b : BoxOf ι α) (i : ι) : boxPeak b i ≤ boxPeak (castBox cv b) i / (1 - δ) := by
  have key : ∀ x, |x| * (1 - δ) ≤ |cv x| := fun x => by
    have h1 := hc.err x
    have h2 : |x| ≤ |cv x - x| + |cv x| := by
      have := abs_sub (cv x) (cv x - x)
      rw [sub_sub_cancel] at this
      linarith
    linarith
  rw [le_div_iff₀ (by linarith)]
  rcases le_total |b.1 i| |b.2 i| with h | h
  · rw [show boxPeak b i = |b.2 i| from max_eq_right h]
    exact (key _).trans (le_max_right _ _)
  · rw [show boxPeak b i = |b.1 i| from max_eq_left h]
    exact (key _).trans (le_max_left _ _)

/-- Bounds of known size and error of the converted inputs, read at the inputs. -/
theorem ModeNear.converted (hδ : 0 ≤ δ) (hδ1 : δ < 1) (hc : Conversion cv δ) {m : Mode} {b : BoxOf ι α} {g : Full (BoxOf ι α) ι κ α} {p : ι → α}
    (hp : p ∈ Box b.1 b.2) {y : κ → α} {e : κ → ModeErr α} (v : ModeNear m (boxPeak (castBox cv b)) g (fun i => cv (p i)) y e) :
    ModeNear m (boxPeak b) g p y (fun k => (e k).cast δ) := by
  have hd : 0 < 1 - δ := by linarith
  refine ⟨fun hi k => v.const hi k, fun ha => ?_⟩
  obtain ⟨v1, v2⟩ := v.aff ha
  have S : ∀ k, g.sizeAff (boxPeak b) k ≤ (e k).aSize / (1 - δ) := by
    intro k
    refine le_trans ?_ (div_le_div_of_nonneg_right (v1 k) hd.le)
    simp only [Full.sizeAff]
    rw [add_div, Finset.sum_div]
    refine add_le_add (Finset.sum_le_sum fun i _ => ?_) ?_
    · rw [mul_div_assoc]
      exact mul_le_mul_of_nonneg_left (cast_peak hδ1 hc b i) ((abs_nonneg _).trans (le_max_left _ _))
    · rw [le_div_iff₀ hd]
      have : 0 ≤ max |g.bu k| |g.bl k| := (abs_nonneg _).trans (le_max_left _ _)
      nlinarith
  have hX0 : ∀ i, 0 ≤ boxPeak b i := fun i => (abs_nonneg _).trans (peak_le b i).1
  have D : ∀ w : ι → α, |∑ i, w i * cv (p i) - ∑ i, w i * p i| ≤ δ * ∑ i, |w i| * boxPeak b i := by
    intro w
    rw [← Finset.sum_sub_distrib, Finset.mul_sum]
    refine (Finset.abs_sum_le_sum_abs _ _).trans (Finset.sum_le_sum fun i _ => ?_)
    rw [← mul_sub, abs_mul]
    have h1 := (hc.err (p i)).trans (mul_le_mul_of_nonneg_left (peak_point b hp i) hδ)
    have := mul_le_mul_of_nonneg_left h1 (abs_nonneg (w i))
    linarith
  refine ⟨S, ⟨fun hi => absurd hi (by simp [getIbp]), fun _ k => ?_⟩⟩
  obtain ⟨a1, a2⟩ := v2.aff rfl k
  obtain ⟨s1, s2⟩ := aff_range_size hX0 (S k)
  have d1 := abs_le.1 (D fun i => g.wu i k)
  have d2 := abs_le.1 (D fun i => g.wl i k)
  have t1 := mul_le_mul_of_nonneg_left (show ∑ i, |g.wu i k| * boxPeak b i ≤ (e k).aSize / (1 - δ) by linarith [abs_nonneg (g.bu k)]) hδ
  have t2 := mul_le_mul_of_nonneg_left (show ∑ i, |g.wl i k| * boxPeak b i ≤ (e k).aSize / (1 - δ) by linarith [abs_nonneg (g.bl k)]) hδ
  simp only [ModeErr.cast, affEval] at *
  constructor <;> linarith [d1.1, d1.2, d2.1, d2.2]

end

end Decomon
