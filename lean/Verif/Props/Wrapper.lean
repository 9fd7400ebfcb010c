import Verif.Lemmas.Wrapper
import Verif.Props.Core
import Verif.Props.Network
import Mathlib.Tactic.FinCases
import Mathlib.Logic.Function.Iterate

/-! Properties C33 to C41, C46, C72, C73: the wrapper functions. -/

namespace Decomon

/-! ### C35: refine_boxes -/

section Refine
variable {n : ℕ} {α : Type*} [Field α] [LinearOrder α] [IsStrictOrderedRing α]

/-- C35: on inputs of shape `(batch, n)` the sub-boxes lie in the box, are not empty, and cover it.
Missing with respect to the full claim: inputs of higher rank, refuted below. -/
theorem C35_covers_partial (nSub : ℕ) (b : BoxOf (Fin (n + 1)) α) (hb : ∀ i, b.1 i ≤ b.2 i) :
    (∀ c ∈ refineBoxes true nSub b, (∀ i, c.1 i ≤ c.2 i) ∧ ∀ i, b.1 i ≤ c.1 i ∧ c.2 i ≤ b.2 i) ∧
    ∀ p ∈ Box b.1 b.2, ∃ c ∈ refineBoxes true nSub b, p ∈ Box c.1 c.2 :=
  ⟨(covers_refine nSub b).good hb, (covers_refine nSub b).cover⟩

omit [IsStrictOrderedRing α] in
/-- C35: their number is the largest power of two that does not exceed `n_sub_boxes`. -/
theorem C35_count (flat : Bool) (nSub : ℕ) (hn : 0 < nSub) (b : BoxOf (Fin (n + 1)) α) :
    ∃ k, (refineBoxes flat nSub b).length = 2 ^ k ∧ 2 ^ k ≤ nSub ∧ nSub < 2 ^ (k + 1) :=
  ⟨_, refineBoxes_length flat nSub hn b, Nat.pow_log_le_self 2 (by omega), Nat.lt_pow_succ_log_self (by norm_num) nSub⟩

/-- Number of coordinates along which the box is wider than `h`. -/
def bigCount (h : α) (c : BoxOf (Fin (n + 1)) α) : ℕ := (Finset.univ.filter fun i => h < boxWidth c i).card

theorem half_widths (c d : BoxOf (Fin (n + 1)) α) (hc : GoodBox c)
    (hd : d = lowHalf c (argmax (boxWidth c)) ∨ d = highHalf c (argmax (boxWidth c))) :
    (∀ i, boxWidth d i ≤ boxWidth c i) ∧ boxWidth d (argmax (boxWidth c)) = boxWidth c (argmax (boxWidth c)) / 2 := by
  have hj := hc (argmax (boxWidth c))
  rcases hd with rfl | rfl
  all_goals
    constructor
    · intro i
      by_cases e : i = argmax (boxWidth c)
      · rw [e]; simp only [boxWidth, lowHalf, highHalf, Function.update_self] at *; linarith
      · simp [boxWidth, lowHalf, highHalf, e]
    · simp only [boxWidth, lowHalf, highHalf, Function.update_self]; ring

theorem bigCount_half (h : α) (c d : BoxOf (Fin (n + 1)) α) (hc : GoodBox c) (hw : ∀ i, boxWidth c i ≤ 2 * h)
    (hd : d = lowHalf c (argmax (boxWidth c)) ∨ d = highHalf c (argmax (boxWidth c))) : bigCount h d ≤ bigCount h c - 1 := by
  obtain ⟨h1, h2⟩ := half_widths c d hc hd
  unfold bigCount
  by_cases e : h < boxWidth c (argmax (boxWidth c))
  · rw [← Finset.card_erase_of_mem (show argmax (boxWidth c) ∈ Finset.univ.filter fun i => h < boxWidth c i by simpa using e)]
    apply Finset.card_le_card
    intro i hi
    simp only [Finset.mem_filter, Finset.mem_univ, true_and, Finset.mem_erase] at hi ⊢
    refine ⟨?_, hi.trans_le (h1 i)⟩
    rintro rfl
    have := hw (argmax (boxWidth c))
    rw [h2] at hi
    linarith
  · have : ∀ x : BoxOf (Fin (n + 1)) α, (∀ i, boxWidth x i ≤ h) → (Finset.univ.filter fun i => h < boxWidth x i) = ∅ := by
      intro x hx; ext i; simpa using hx i
    rw [this d fun i => (h1 i).trans ((le_argmax (boxWidth c) i).trans (not_lt.1 e))]
    simp

omit [IsStrictOrderedRing α] in
theorem refineLoop_iterate (fuel nSub : ℕ) (bs : List (BoxOf (Fin (n + 1)) α)) :
    ∃ k, refineLoop fuel nSub bs = splitBoxes^[k] bs := by
  induction fuel generalizing bs with
  | zero => exact ⟨0, rfl⟩
  | succ f ih =>
    simp only [refineLoop]
    split
    · obtain ⟨k, h⟩ := ih (splitBoxes bs)
      exact ⟨k + 1, by rw [h, Function.iterate_succ_apply]⟩
    · exact ⟨0, rfl⟩

omit [IsStrictOrderedRing α] in
theorem iterate_length (k : ℕ) (bs : List (BoxOf (Fin (n + 1)) α)) : (splitBoxes^[k] bs).length = 2 ^ k * bs.length := by
  induction k with
  | zero => simp
  | succ k ih => rw [Function.iterate_succ_apply', splitBoxes_length, ih, pow_succ]; ring

omit [IsStrictOrderedRing α] in
theorem refineBoxes_iterate (nSub : ℕ) (hn : 0 < nSub) (b : BoxOf (Fin (n + 1)) α) :
    refineBoxes true nSub b = splitBoxes^[Nat.log 2 nSub] [b] := by
  obtain ⟨k, h⟩ := refineLoop_iterate nSub nSub [b]
  have h1 := refineBoxes_length true nSub hn b
  have h2 : refineBoxes true nSub b = splitBoxes^[k] [b] := by simpa [refineBoxes] using h
  rw [h2, iterate_length] at h1
  simp only [List.length_singleton, mul_one] at h1
  rw [h2, Nat.pow_right_injective le_rfl h1]

theorem covers_iterate (s : ℕ) (b : BoxOf (Fin (n + 1)) α) : Covers (splitBoxes^[s] [b]) b := by
  induction s with
  | zero => exact Covers.self b
  | succ s ih => rw [Function.iterate_succ_apply']; exact covers_split _ _ ih

theorem iterate_widths (b : BoxOf (Fin (n + 1)) α) (hb : GoodBox b) (W : α) (hW : ∀ i, boxWidth b i ≤ W) (s : ℕ) :
    ∀ k j, s = (n + 1) * k + j → j ≤ n + 1 → ∀ c ∈ splitBoxes^[s] [b],
      (∀ i, boxWidth c i ≤ W / 2 ^ k) ∧ bigCount (W / 2 ^ (k + 1)) c ≤ n + 1 - j := by
  induction s with
  | zero =>
    intro k j hs _ c hc
    have hc : c = b := by simpa using hc
    have hk : k = 0 := by
      rcases Nat.eq_zero_or_pos k with h | h
      · exact h
      · have : 0 < (n + 1) * k := Nat.mul_pos (Nat.succ_pos n) h
        omega
    have hj : j = 0 := by omega
    subst hc hk hj
    refine ⟨by simpa using hW, ?_⟩
    unfold bigCount
    exact (Finset.card_le_univ _).trans (by simp)
  | succ s ih =>
    -- a split adds one to `j`
    have step : ∀ k j, s + 1 = (n + 1) * k + (j + 1) → j + 1 ≤ n + 1 → ∀ c ∈ splitBoxes^[s + 1] [b],
        (∀ i, boxWidth c i ≤ W / 2 ^ k) ∧ bigCount (W / 2 ^ (k + 1)) c ≤ n + 1 - (j + 1) := by
      intro k j hs hj c hc
      rw [Function.iterate_succ_apply'] at hc
      have hc' : ∃ a ∈ splitBoxes^[s] [b], c = lowHalf a (argmax (boxWidth a)) ∨ c = highHalf a (argmax (boxWidth a)) := by
        simp only [splitBoxes, List.mem_append, List.mem_map] at hc
        rcases hc with ⟨a, ha, rfl⟩ | ⟨a, ha, rfl⟩
        · exact ⟨a, ha, Or.inl rfl⟩
        · exact ⟨a, ha, Or.inr rfl⟩
      obtain ⟨a, ha, hca⟩ := hc'
      obtain ⟨i1, i2⟩ := ih k j (by omega) (by omega) a ha
      have hg := ((covers_iterate s b).good hb a ha).1
      have e : W / 2 ^ k = 2 * (W / 2 ^ (k + 1)) := by rw [pow_succ]; field_simp
      have hcount := bigCount_half (W / 2 ^ (k + 1)) a c hg (fun i => by rw [← e]; exact i1 i) hca
      exact ⟨fun i => ((half_widths a c hg hca).1 i).trans (i1 i), by omega⟩
    intro k j hs hj c hc
    rcases Nat.eq_zero_or_pos j with h0 | h0
    · -- `j = 0`: the previous block is complete
      subst h0
      obtain ⟨k', rfl⟩ : ∃ k', k = k' + 1 := by
        cases k with
        | zero => simp at hs
        | succ k' => exact ⟨k', rfl⟩
      obtain ⟨-, h2⟩ := step k' n (by rw [hs]; ring) (by omega) c hc
      have h2' : bigCount (W / 2 ^ (k' + 1)) c = 0 := by omega
      constructor
      · intro i
        by_contra hlt
        unfold bigCount at h2'
        rw [Finset.card_eq_zero, Finset.filter_eq_empty_iff] at h2'
        exact h2' (Finset.mem_univ i) (not_le.1 hlt)
      · unfold bigCount
        exact (Finset.card_le_univ _).trans (by simp)
    · obtain ⟨j', rfl⟩ : ∃ j', j = j' + 1 := ⟨j - 1, by omega⟩
      exact step k j' hs hj c hc

/-- C35: convergence of the refinement: with `2 ^ (k * n)` sub-boxes or more (`n` the number of coordinates) no sub-box is wider than
`W / 2 ^ k`, where `W` bounds the widths of the box. -/
theorem C35_widths (k nSub : ℕ) (hn : 2 ^ (k * (n + 1)) ≤ nSub) (b : BoxOf (Fin (n + 1)) α) (hb : ∀ i, b.1 i ≤ b.2 i) (W : α)
    (hW : ∀ i, b.2 i - b.1 i ≤ W) : ∀ c ∈ refineBoxes true nSub b, ∀ i, c.2 i - c.1 i ≤ W / 2 ^ k := by
  intro c hc i
  have hpos : 0 < nSub := lt_of_lt_of_le (by positivity) hn
  rw [refineBoxes_iterate nSub hpos b] at hc
  have hlog : k * (n + 1) ≤ Nat.log 2 nSub := (Nat.le_log_iff_pow_le (by norm_num) (by omega)).2 hn
  generalize Nat.log 2 nSub = s at *
  have hd := Nat.div_add_mod s (n + 1)
  have hm := Nat.mod_lt s (Nat.succ_pos n)
  have hk : k ≤ s / (n + 1) := (Nat.le_div_iff_mul_le (Nat.succ_pos n)).2 hlog
  have := (iterate_widths b hb W hW s (s / (n + 1)) (s % (n + 1)) hd.symm hm.le c hc).1 i
  refine this.trans ?_
  have hW0 : 0 ≤ W := (sub_nonneg.2 (hb i)).trans (hW i)
  exact div_le_div_of_nonneg_left hW0 (by positivity) (pow_le_pow_right₀ (by norm_num) hk)

/-- Cases of C35: `[0, 4] × [0, 1]` with `n_sub_boxes=5` gives four boxes, each of width at most 2, which cover it. -/
example (p : Fin 2 → ℚ) (hp : p ∈ Box ![0, 0] ![4, 1]) : ∃ c ∈ refineBoxes true 5 ((![0, 0], ![4, 1]) : BoxOf (Fin 2) ℚ), p ∈ Box c.1 c.2 :=
  (C35_covers_partial 5 (![0, 0], ![4, 1]) (by decide +kernel)).2 p hp

example : ∃ k, (refineBoxes true 5 ((![0, 0], ![4, 1]) : BoxOf (Fin 2) ℚ)).length = 2 ^ k ∧ 2 ^ k ≤ 5 ∧ 5 < 2 ^ (k + 1) := C35_count true 5 (by norm_num) _

example : ∀ c ∈ refineBoxes true 5 ((![0, 0], ![4, 1]) : BoxOf (Fin 2) ℚ), ∀ i, c.2 i - c.1 i ≤ 4 / 2 ^ 1 :=
  C35_widths 1 5 (by norm_num) _ (by decide +kernel) 4 (by decide +kernel)

/-- C35: on inputs of rank 3 or more, every sub-box is the single point `x_min`: nothing else of the box is covered. -/
theorem C35_images_refuted (nSub : ℕ) (b : BoxOf (Fin (n + 1)) α) (p : Fin (n + 1) → α) (hp : p ≠ b.1) :
    ∀ c ∈ refineBoxes false nSub b, p ∉ Box c.1 c.2 := by
  have key : ∀ (fuel : ℕ) (bs : List (BoxOf (Fin (n + 1)) α)), (∀ c ∈ bs, c = (b.1, b.1)) →
      ∀ c ∈ refineLoop fuel nSub bs, c = (b.1, b.1) := by
    intro fuel
    induction fuel with
    | zero => intro bs h; exact h
    | succ f ih =>
      intro bs h
      simp only [refineLoop]
      split
      · apply ih
        intro c hc
        simp only [splitBoxes, List.mem_append, List.mem_map] at hc
        have e : ∀ j, Function.update b.1 j ((b.1 j + b.1 j) / 2) = b.1 := by
          intro j; rw [← two_mul, mul_div_cancel_left₀ _ (two_ne_zero)]; exact Function.update_eq_self j b.1
        rcases hc with ⟨a, ha, rfl⟩ | ⟨a, ha, rfl⟩ <;> rw [h a ha] <;> simp [lowHalf, highHalf, e]
      · exact h
  intro c hc hpc
  have := key nSub [(b.1, b.1)] (by simp) c (by simpa [refineBoxes] using hc)
  subst this
  apply hp
  funext i
  exact le_antisymm (hpc i).2 (hpc i).1

/-- C35 on an example: `[0,4] × [0,1]` in at most 5 boxes: four boxes `[k, k+1] × [0,1]`. -/
example : (refineBoxes true 5 ((![0, 0], ![4, 1]) : BoxOf (Fin 2) ℚ)).map (fun c => (c.1 0, c.2 0, c.1 1, c.2 1)) =
    [(0, 1, 0, 1), (2, 3, 0, 1), (1, 2, 0, 1), (3, 4, 0, 1)] := by decide +kernel

/-! ### C37: refine_box -/

/-- C37: with `random=False` the maximum over the sub-boxes of sound upper bounds is a sound upper bound, for every `n_split`. -/
theorem C37_upper_sound_partial {κ : Type*} (F : (Fin (n + 1) → α) → κ → α) (ub : BoxOf (Fin (n + 1)) α → κ → α) (nSplit : ℕ)
    (b : BoxOf (Fin (n + 1)) α) (hub : ∀ c, ∀ p ∈ Box c.1 c.2, ∀ k, F p k ≤ ub c k) (p : Fin (n + 1) → α) (hp : p ∈ Box b.1 b.2) (k : κ) :
    F p k ≤ refineBox true ub nSplit b k := by
  obtain ⟨c, hc, hpc⟩ := (covers_refineBoxLoop nSplit nSplit [b] [boxWidth b] b (Covers.self b)).cover p hp
  simp only [refineBox, if_true]
  exact (hub c p hpc k).trans (le_listMax (List.mem_map.2 ⟨c, hc, rfl⟩))

/-- C37: the same for the lower bounds. -/
theorem C37_lower_sound_partial {κ : Type*} (F : (Fin (n + 1) → α) → κ → α) (lb : BoxOf (Fin (n + 1)) α → κ → α) (nSplit : ℕ)
    (b : BoxOf (Fin (n + 1)) α) (hlb : ∀ c, ∀ p ∈ Box c.1 c.2, ∀ k, lb c k ≤ F p k) (p : Fin (n + 1) → α) (hp : p ∈ Box b.1 b.2) (k : κ) :
    refineBox false lb nSplit b k ≤ F p k := by
  obtain ⟨c, hc, hpc⟩ := (covers_refineBoxLoop nSplit nSplit [b] [boxWidth b] b (Covers.self b)).cover p hp
  simp only [refineBox]
  exact (listMin_le (List.mem_map.2 ⟨c, hc, rfl⟩)).trans (hlb c p hpc k)

omit [IsStrictOrderedRing α] in
/-- C37: exactly `n_split` boxes are used. -/
theorem C37_count (nSplit : ℕ) (h : 1 ≤ nSplit) (b : BoxOf (Fin (n + 1)) α) :
    (refineBoxLoop nSplit nSplit [b] [boxWidth b]).length = nSplit :=
  refineBoxLoop_length nSplit nSplit [b] [boxWidth b] (by simp) (by simp) (by simpa using h) (by simp)

/-- Specification: `bs'` comes from `bs` by cuts, each of which halves a longest edge among all the boxes. -/
inductive WidestCuts : List (BoxOf (Fin (n + 1)) α) → List (BoxOf (Fin (n + 1)) α) → Prop
  | done (bs) : WidestCuts bs bs
  | cut (bs bs') (pre post : List (BoxOf (Fin (n + 1)) α)) (c : BoxOf (Fin (n + 1)) α) (j : Fin (n + 1)) (hbs : bs = pre ++ c :: post)
      (hmax : ∀ d ∈ bs, ∀ k, d.2 k - d.1 k ≤ c.2 j - c.1 j)
      (h : WidestCuts (pre ++ (c.1, Function.update c.2 j ((c.1 j + c.2 j) / 2)) :: post ++
        [(Function.update c.1 j ((c.1 j + c.2 j) / 2), c.2)]) bs') : WidestCuts bs bs'

theorem boxWidth_low (b : BoxOf (Fin (n + 1)) α) (j : Fin (n + 1)) :
    boxWidth (lowHalf b j) = Function.update (boxWidth b) j (boxWidth b j / 2) := by
  funext k
  by_cases h : k = j
  · subst h; simp [boxWidth, lowHalf]; ring
  · simp [boxWidth, lowHalf, h]

theorem boxWidth_high (b : BoxOf (Fin (n + 1)) α) (j : Fin (n + 1)) :
    boxWidth (highHalf b j) = Function.update (boxWidth b) j (boxWidth b j / 2) := by
  funext k
  by_cases h : k = j
  · subst h; simp [boxWidth, highHalf]; ring
  · simp [boxWidth, highHalf, h]

theorem refineBoxLoop_widest (fuel nSplit : ℕ) (bs : List (BoxOf (Fin (n + 1)) α)) :
    WidestCuts bs (refineBoxLoop fuel nSplit bs (bs.map boxWidth)) := by
  induction fuel generalizing bs with
  | zero => exact .done _
  | succ f ih =>
    simp only [refineBoxLoop]
    split
    swap
    · exact .done _
    split
    · exact .done _
    · rename_i w hw
      rw [List.map_map] at *
      set vals := bs.map ((fun w => w (argmax w)) ∘ boxWidth) with hv
      set i := vals.findIdx (fun x => decide (x = listMax vals)) with hi
      obtain ⟨hil, hwi⟩ := List.getElem?_eq_some_iff.1 hw
      rw [List.length_map] at hil
      rw [List.getElem_map] at hwi
      have hvl : i < vals.length := by simpa [hv] using hil
      have hval : vals[i] = listMax vals := by
        have := List.findIdx_getElem (xs := vals) (p := fun x => decide (x = listMax vals)) (w := hvl)
        simpa using this
      have hvi : vals[i] = w (argmax w) := by simp [hv, hwi]
      have hmax : ∀ d ∈ bs, ∀ k, d.2 k - d.1 k ≤ bs[i].2 (argmax w) - bs[i].1 (argmax w) := by
        intro d hd k
        have e : bs[i].2 (argmax w) - bs[i].1 (argmax w) = listMax vals := by
          rw [← hval, hvi, ← hwi]; rfl
        rw [e]
        exact (le_argmax (boxWidth d) k).trans (le_listMax (List.mem_map.2 ⟨d, hd, rfl⟩))
      have hsplit : bs = bs.take i ++ bs[i] :: bs.drop (i + 1) := by simp
      have hstep : refineStep bs i (argmax w) = bs.take i ++ lowHalf bs[i] (argmax w) :: bs.drop (i + 1) ++ [highHalf bs[i] (argmax w)] := by
        simp only [refineStep, List.getElem?_eq_getElem hil]
        rw [List.set_eq_take_append_cons_drop, if_pos hil]
      have hws : (bs.map boxWidth).set i (Function.update w (argmax w) (w (argmax w) / 2)) ++ [Function.update w (argmax w) (w (argmax w) / 2)]
          = (refineStep bs i (argmax w)).map boxWidth := by
        have e := boxWidth_low bs[i] (argmax w)
        have e' := boxWidth_high bs[i] (argmax w)
        rw [hwi] at e e'
        simp only [refineStep, List.getElem?_eq_getElem hil, List.map_append, List.map_set, List.map_cons, List.map_nil, e, e']
      refine .cut bs _ (bs.take i) (bs.drop (i + 1)) bs[i] (argmax w) hsplit hmax ?_
      rw [hws]
      have := ih (refineStep bs i (argmax w))
      rw [hstep] at this ⊢
      exact this

/-- C37: `refine_box` always cuts a longest edge among all the edges of all the boxes. -/
theorem C37_longest_edge (nSplit : ℕ) (b : BoxOf (Fin (n + 1)) α) :
    WidestCuts [b] (refineBoxLoop nSplit nSplit [b] [boxWidth b]) :=
  refineBoxLoop_widest nSplit nSplit [b]

/-- Boxes with the number of times each edge was halved. -/
structure CutInv (W : α) (k : ℕ) (L : List (BoxOf (Fin (n + 1)) α × (Fin (n + 1) → ℕ))) : Prop where
  width : ∀ x ∈ L, ∀ i, 0 ≤ x.1.2 i - x.1.1 i ∧ x.1.2 i - x.1.1 i ≤ W / 2 ^ x.2 i
  depth : ∀ x ∈ L, ∀ i, x.2 i ≤ k
  kraft : (L.map fun x => (1 : ℚ) / 2 ^ ∑ i, x.2 i).sum = 1

theorem widestCuts_le {bs bs' : List (BoxOf (Fin (n + 1)) α)} (h : WidestCuts bs bs') (M : α) (hM : ∀ d ∈ bs, ∀ k, 0 ≤ d.2 k - d.1 k ∧ d.2 k - d.1 k ≤ M) :
    ∀ d ∈ bs', ∀ k, 0 ≤ d.2 k - d.1 k ∧ d.2 k - d.1 k ≤ M := by
  induction h with
  | done => exact hM
  | cut bs bs' pre post c j hbs hmax h ih =>
    apply ih
    subst hbs
    have hc := hM c (by simp)
    have half : ∀ k, 0 ≤ (Function.update (boxWidth c) j (boxWidth c j / 2)) k ∧ (Function.update (boxWidth c) j (boxWidth c j / 2)) k ≤ M := by
      intro k
      by_cases e : k = j
      · subst e
        have := hc k
        simp only [Function.update_self, boxWidth]
        constructor <;> linarith
      · rw [Function.update_of_ne e]; exact hc k
    intro d hd k
    simp only [List.append_assoc, List.cons_append, List.mem_append, List.mem_cons, List.not_mem_nil, or_false] at hd
    rcases hd with hd | rfl | hd | rfl
    · exact hM d (by simp [hd]) k
    · have := half k; rw [← boxWidth_low] at this; exact this
    · exact hM d (by simp [hd]) k
    · have := half k; rw [← boxWidth_high] at this; exact this

theorem widestCuts_inv {W : α} {k : ℕ} {bs bs' : List (BoxOf (Fin (n + 1)) α)} (h : WidestCuts bs bs')
    (hbad : ∃ d ∈ bs', ∃ i, W / 2 ^ k < d.2 i - d.1 i) (L : List (BoxOf (Fin (n + 1)) α × (Fin (n + 1) → ℕ))) (hL : L.map Prod.fst = bs)
    (hi : CutInv W k L) : ∃ L', L'.map Prod.fst = bs' ∧ CutInv W k L' := by
  induction h generalizing L with
  | done => exact ⟨L, hL, hi⟩
  | cut bs bs' pre post c j hbs hmax h ih =>
    have hnn : ∀ d ∈ bs, ∀ i, 0 ≤ d.2 i - d.1 i := by
      rw [← hL]; intro d hd i
      obtain ⟨x, hx, rfl⟩ := List.mem_map.1 hd
      exact (hi.width x hx i).1
    have hall := widestCuts_le (WidestCuts.cut bs bs' pre post c j hbs hmax h) (c.2 j - c.1 j) fun d hd i => ⟨hnn d hd i, hmax d hd i⟩
    have hedge : W / 2 ^ k < c.2 j - c.1 j := by
      obtain ⟨d, hd, i, hlt⟩ := hbad
      exact hlt.trans_le (hall d hd i).2
    rw [hbs] at hL
    obtain ⟨Lpre, Lrest, rfl, hp, hr⟩ := List.map_eq_append_iff.1 hL
    obtain ⟨x, Lpost, rfl, hx, hq⟩ := List.map_eq_cons_iff.1 hr
    subst hx
    obtain ⟨c, dep⟩ := x
    dsimp only at *
    have hw := hi.width (c, dep) (by simp)
    have hd := hi.depth (c, dep) (by simp)
    have hdj : dep j < k := by
      by_contra hge
      have e : dep j = k := le_antisymm (hd j) (not_lt.1 hge)
      have := (hw j).2
      dsimp only at this
      rw [e] at this
      exact absurd (hedge.trans_le this) (lt_irrefl _)
    set dep' := Function.update dep j (dep j + 1) with hdep
    have hsum : ∑ i, dep' i = (∑ i, dep i) + 1 := by
      rw [hdep, Finset.sum_update_of_mem (Finset.mem_univ j), ← Finset.add_sum_erase _ dep (Finset.mem_univ j), Finset.sdiff_singleton_eq_erase]
      ring
    have hw' : ∀ i, 0 ≤ Function.update (boxWidth c) j (boxWidth c j / 2) i ∧
        Function.update (boxWidth c) j (boxWidth c j / 2) i ≤ W / 2 ^ dep' i := by
      intro i
      by_cases e : i = j
      · subst e
        have h0 := hw i
        dsimp only at h0
        simp only [Function.update_self, hdep, boxWidth]
        refine ⟨by linarith, ?_⟩
        rw [pow_succ, ← div_div]
        linarith
      · rw [hdep, Function.update_of_ne e, Function.update_of_ne e]; exact hw i
    have hd' : ∀ i, dep' i ≤ k := by
      intro i
      by_cases e : i = j
      · subst e; simp only [hdep, Function.update_self]; omega
      · rw [hdep, Function.update_of_ne e]; exact hd i
    refine ih hbad (Lpre ++ (lowHalf c j, dep') :: Lpost ++ [(highHalf c j, dep')]) ?_ ⟨?_, ?_, ?_⟩
    · simp [hp, hq, lowHalf, highHalf]
    · intro x hx i
      simp only [List.append_assoc, List.cons_append, List.mem_append, List.mem_cons, List.not_mem_nil, or_false] at hx
      rcases hx with hx | rfl | hx | rfl
      · exact hi.width x (by simp [hx]) i
      · have := hw' i; rw [← boxWidth_low] at this; exact this
      · exact hi.width x (by simp [hx]) i
      · have := hw' i; rw [← boxWidth_high] at this; exact this
    · intro x hx i
      simp only [List.append_assoc, List.cons_append, List.mem_append, List.mem_cons, List.not_mem_nil, or_false] at hx
      rcases hx with hx | rfl | hx | rfl
      · exact hi.depth x (by simp [hx]) i
      · exact hd' i
      · exact hi.depth x (by simp [hx]) i
      · exact hd' i
    · have := hi.kraft
      simp only [List.map_append, List.map_cons, List.map_nil, List.sum_append, List.sum_cons, List.sum_nil, hsum, pow_succ] at this ⊢
      have h2 : (1 : ℚ) / (2 ^ (∑ i, dep i) * 2) = 1 / 2 ^ (∑ i, dep i) / 2 := by rw [div_div]
      rw [h2]
      linarith

/-- C37: the boxes become small: with at least `2 ^ (k * number of coordinates)` boxes, every edge is at most the longest edge of the
original box over `2 ^ k`. -/
theorem C37_small_boxes (b : BoxOf (Fin (n + 1)) α) (hb : ∀ i, b.1 i ≤ b.2 i) (W : α) (hW : ∀ i, b.2 i - b.1 i ≤ W) (k nSplit : ℕ)
    (hk : 2 ^ (k * (n + 1)) ≤ nSplit) :
    ∀ c ∈ refineBoxLoop nSplit nSplit [b] [boxWidth b], ∀ i, c.2 i - c.1 i ≤ W / 2 ^ k := by
  by_contra hne
  push Not at hne
  obtain ⟨c, hc, i, hlt⟩ := hne
  obtain ⟨L, hL, hi⟩ := widestCuts_inv (k := k) (C37_longest_edge nSplit b) ⟨c, hc, i, hlt⟩ [(b, fun _ => 0)] rfl
    ⟨by simpa using fun i => ⟨hb i, by simpa using hW i⟩, by simp, by simp⟩
  have hlen : L.length = nSplit := by
    rw [← List.length_map (f := Prod.fst), hL]
    exact C37_count nSplit (Nat.one_le_two_pow.trans hk) b
  rw [← hL] at hc
  obtain ⟨x, hx, rfl⟩ := List.mem_map.1 hc
  have hs : ∀ y ∈ L, ∑ i, y.2 i ≤ k * (n + 1) := by
    intro y hy
    refine (Finset.sum_le_card_nsmul _ _ k fun i _ => hi.depth y hy i).trans ?_
    simp [mul_comm]
  have hx' : ∑ i, x.2 i < k * (n + 1) := by
    have h1 : x.2 i < k := by
      by_contra hge
      have e : x.2 i = k := le_antisymm (hi.depth x hx i) (not_lt.1 hge)
      have := (hi.width x hx i).2
      rw [e] at this
      exact absurd (hlt.trans_le this) (lt_irrefl _)
    refine (Finset.sum_lt_sum (fun i _ => hi.depth x hx i) ⟨i, Finset.mem_univ i, h1⟩).trans_le ?_
    simp [mul_comm]
  have hlow : ∀ y ∈ L, (1 : ℚ) / 2 ^ (k * (n + 1)) ≤ 1 / 2 ^ ∑ i, y.2 i := fun y hy =>
    one_div_le_one_div_of_le (by positivity) (pow_le_pow_right₀ (by norm_num) (hs y hy))
  have hlow' : (1 : ℚ) / 2 ^ (k * (n + 1)) < 1 / 2 ^ ∑ i, x.2 i :=
    one_div_lt_one_div_of_lt (by positivity) (pow_lt_pow_right₀ (by norm_num) hx')
  have := List.sum_lt_sum (l := L) (fun _ => (1 : ℚ) / 2 ^ (k * (n + 1))) (fun y => 1 / 2 ^ ∑ i, y.2 i) hlow ⟨x, hx, hlow'⟩
  rw [hi.kraft, List.map_const', List.sum_replicate, hlen, nsmul_eq_mul] at this
  have h3 : ((2 : ℚ) ^ (k * (n + 1))) ≤ nSplit := by exact_mod_cast hk
  have h4 : (0 : ℚ) < 2 ^ (k * (n + 1)) := by positivity
  rw [mul_one_div, div_lt_one h4] at this
  linarith

/-- C37 on an example: `[0,4] × [0,1]` in 4 boxes. -/
example : (refineBoxLoop 4 4 [((![0, 0], ![4, 1]) : BoxOf (Fin 2) ℚ)] [boxWidth (![0, 0], ![4, 1])]).map
    (fun c => (c.1 0, c.2 0, c.1 1, c.2 1)) = [(0, 1, 0, 1), (2, 3, 0, 1), (1, 2, 0, 1), (3, 4, 0, 1)] := by decide +kernel

/-- C37: the default `random=True` raises `ValueError` for every `n_split ≥ 2` and every function it accepts. -/
theorem C37_random_refuted (f : WrapFunc) (hf : f ≠ .other) (nx nSplit nOut : ℕ) (h : 2 ≤ nSplit) (hx : 0 < nx) :
    refineBoxErr f true nx nSplit nOut = some .valueError := by
  simp [refineBoxErr, hf, h, hx, show nSplit ≠ 0 by omega]

/-- Cases of C37: the sum of two inputs, bounded on a box by the sum of its upper corner, with four sub-boxes. -/
example (p : Fin 2 → ℚ) (hp : p ∈ Box ![0, 0] ![4, 1]) :
    p 0 + p 1 ≤ refineBox true (fun c (_ : Fin 1) => c.2 0 + c.2 1) 4 (![0, 0], ![4, 1]) 0 :=
  C37_upper_sound_partial (fun p _ => p 0 + p 1) _ 4 (![0, 0], ![4, 1]) (fun _ _ h _ => add_le_add (h 0).2 (h 1).2) p hp 0

example (p : Fin 2 → ℚ) (hp : p ∈ Box ![0, 0] ![4, 1]) :
    refineBox false (fun c (_ : Fin 1) => c.1 0 + c.1 1) 4 (![0, 0], ![4, 1]) 0 ≤ p 0 + p 1 :=
  C37_lower_sound_partial (fun p _ => p 0 + p 1) _ 4 (![0, 0], ![4, 1]) (fun _ _ h _ => add_le_add (h 0).1 (h 1).1) p hp 0

example : (refineBoxLoop 7 7 [((![0, 0], ![4, 1]) : BoxOf (Fin 2) ℚ)] [boxWidth (![0, 0], ![4, 1])]).length = 7 := C37_count 7 (by norm_num) _

example : ∀ c ∈ refineBoxLoop 4 4 [((![0, 0], ![4, 1]) : BoxOf (Fin 2) ℚ)] [boxWidth (![0, 0], ![4, 1])], ∀ i, c.2 i - c.1 i ≤ 4 / 2 ^ 1 :=
  C37_small_boxes (![0, 0], ![4, 1]) (by decide +kernel) 4 (by decide +kernel) 1 4 (by norm_num)

/-- C37: `get_range_box` is accepted, then always raises. -/
theorem C37_range_refuted (random : Bool) (nx nSplit nOut : ℕ) : refineBoxErr .rangeBox random nx nSplit nOut ≠ none := by
  simp only [refineBoxErr]
  split_ifs <;> simp

/-- C37: with two or more splits and `random=False`, the adversarial scores are computed for exactly one sample and a number of splits
that divides the number of outputs; anything else raises. -/
theorem C37_adv_iff (f : WrapFunc) (hf : f = .advBox ∨ f = .checkAdvBox) (nx nSplit nOut : ℕ) (h : 2 ≤ nSplit) (hx : 0 < nx) :
    refineBoxErr f false nx nSplit nOut = none ↔ nx = 1 ∧ nSplit ∣ nOut := by
  have e : ¬ nx = nx * nSplit := by
    intro e
    have : nx * 1 = nx * nSplit := by omega
    have := Nat.eq_of_mul_eq_mul_left hx this
    omega
  rcases hf with rfl | rfl
  all_goals
    simp only [refineBoxErr, reduceCtorEq, if_false, show nSplit ≠ 0 by omega, Bool.false_eq_true, false_and, e, or_false]
    by_cases h1 : nSplit ∣ nOut ∧ nx = 1
    · simp [h1]
    · rw [if_neg h1]
      simp only [reduceCtorEq, false_iff]
      tauto

/-- One box with ten outputs cut in five, and in four. -/
example : refineBoxErr .advBox false 1 5 10 = none ∧ refineBoxErr .advBox false 1 4 10 ≠ none :=
  ⟨(C37_adv_iff .advBox (.inl rfl) 1 5 10 (by norm_num) (by norm_num)).mpr (by norm_num),
    fun h => absurd ((C37_adv_iff .advBox (.inl rfl) 1 4 10 (by norm_num) (by norm_num)).mp h) (by norm_num)⟩

end Refine

/-! ### C34, C36: get_range_box -/

section Range
variable {n : ℕ} {X ι κ α : Type*} [Field α] [LinearOrder α] [IsStrictOrderedRing α]

/-- What the user expects of the converted model: on the boxes `bs`, its tensors enclose the function `F`. -/
def SoundOn [Fintype ι] (net : BoxOf ι α → Full X ι κ α) (m : Mode) (F : (ι → α) → κ → α) (bs : List (BoxOf ι α)) : Prop :=
  ∀ b ∈ bs, ∀ p ∈ Box b.1 b.2, Valid m false (net b) p (F p)

theorem range_sound [Fintype ι] (m : Mode) (b : BoxOf ι α) (f : Full X ι κ α) (p : ι → α) (hp : p ∈ Box b.1 b.2) (y : κ → α)
    (v : Valid m false f p y) (k : κ) : rangeLower m b f k ≤ y k ∧ y k ≤ rangeUpper m b f k := by
  have hu := getUpperBox_sound hp (fun i => f.wu i k) (f.bu k)
  have hl := getLowerBox_sound hp (fun i => f.wl i k) (f.bl k)
  cases m with
  | ibp => exact v.const rfl k
  | affine => exact ⟨hl.trans (v.aff rfl k).1, (v.aff rfl k).2.trans hu⟩
  | hybrid =>
    exact ⟨max_le (v.const rfl k).1 (hl.trans (v.aff rfl k).1), le_min (v.const rfl k).2 ((v.aff rfl k).2.trans hu)⟩

theorem subBoxes_good (nSub : ℕ) (bs : List (BoxOf (Fin (n + 1)) α)) (h : ∀ b ∈ bs, GoodBox b) :
    ∀ b ∈ (subBoxes nSub bs).1, GoodBox b := by
  unfold subBoxes
  split
  · intro b hb
    obtain ⟨a, ha, hb⟩ := List.mem_flatMap.1 hb
    exact ((covers_refine nSub a).good (h a ha) b hb).1
  · exact h

theorem rangeBase_ok [Fintype ι] (net : BoxOf ι α → Full X ι κ α) (m : Mode) (bs : List (BoxOf ι α)) (h : ∀ b ∈ bs, GoodBox b) :
    rangeBase net m bs = .ok (bs.map fun b => (rangeUpper m b (net b), rangeLower m b (net b))) := by
  rw [rangeBase, (not_bad_iff bs).2 h]; simp

theorem getRangeBox_eq {d : ℕ} (net : BoxOf (Fin (n + 1)) α → Full X (Fin (n + 1)) (Fin d) α) (m : Mode) (batch nSub : ℕ)
    (bs : List (BoxOf (Fin (n + 1)) α)) (h : ∀ b ∈ bs, GoodBox b) :
    getRangeBox net m batch nSub bs =
      (let sub := (subBoxes nSub bs).1
       let u := flatRows (sub.map fun b => rangeUpper m b (net b))
       let l := flatRows (sub.map fun b => rangeLower m b (net b))
       if 1 < (subBoxes nSub bs).2 then
         .ok ((regroup (subBoxes nSub bs).2 u).map listMax, (regroup (subBoxes nSub bs).2 l).map listMin) else .ok (u, l)) := by
  have hg := subBoxes_good nSub bs h
  unfold getRangeBox
  rw [(not_bad_iff bs).2 h]
  simp only [Bool.false_eq_true, if_false]
  have key : ∃ rs, (if 0 < batch then collect ((batches batch (subBoxes nSub bs).1).map (rangeBase net m))
        else collect [rangeBase net m (subBoxes nSub bs).1]) = .ok rs ∧
      rs.flatten = (subBoxes nSub bs).1.map fun b => (rangeUpper m b (net b), rangeLower m b (net b)) := by
    split
    · rename_i hb
      refine ⟨_, collect_ok (rangeBase net m) (fun c => c.map fun b => (rangeUpper m b (net b), rangeLower m b (net b)))
        (batches batch (subBoxes nSub bs).1) ?_, ?_⟩
      · intro c hc
        refine rangeBase_ok net m c fun b hbc => hg b ?_
        rw [← batches_flatten batch hb (subBoxes nSub bs).1]
        exact List.mem_flatten.2 ⟨c, hc, hbc⟩
      · rw [← List.map_flatten, batches_flatten batch hb]
    · exact ⟨_, by rw [rangeBase_ok net m _ hg]; rfl, by simp⟩
  obtain ⟨rs, h1, h2⟩ := key
  rw [h1]
  simp only [h2, List.map_map]
  rfl

omit [Field α] [IsStrictOrderedRing α] [LinearOrder α] in
theorem flatRows_getElem? {d : ℕ} (rows : List (Fin d → α)) (i : ℕ) (r : Fin d → α) (hr : rows[i]? = some r) (c : Fin d) :
    (flatRows rows)[i * d + c]? = some (r c) := by
  unfold flatRows
  induction rows generalizing i with
  | nil => simp at hr
  | cons a t ih =>
    cases i with
    | zero =>
      simp only [List.getElem?_cons_zero, Option.some.injEq] at hr
      subst hr
      rw [List.flatMap_cons, List.getElem?_append_left (by simp)]
      simp
    | succ i =>
      rw [List.flatMap_cons, List.getElem?_append_right (by simp; nlinarith)]
      have e : (i + 1) * d + c - (List.ofFn a).length = i * d + c := by
        rw [List.length_ofFn, Nat.add_mul, Nat.one_mul]; omega
      rw [e]
      exact ih i (by simpa using hr)

omit [Field α] [IsStrictOrderedRing α] [LinearOrder α] in
theorem flatRows_length {d : ℕ} (rows : List (Fin d → α)) : (flatRows rows).length = rows.length * d := by
  unfold flatRows
  induction rows with
  | nil => simp
  | cons a t ih => rw [List.flatMap_cons, List.length_append, ih, List.length_ofFn, List.length_cons]; ring

/-- C34: `get_range_box` without sub-boxes: whatever the batch size, entry `(i, c)` of the two arrays encloses output `c` on box `i`. -/
theorem C34_range_sound {d : ℕ} (net : BoxOf (Fin (n + 1)) α → Full X (Fin (n + 1)) (Fin d) α) (m : Mode) (F : (Fin (n + 1) → α) → Fin d → α)
    (batch nSub : ℕ) (hn : nSub ≤ 1) (bs : List (BoxOf (Fin (n + 1)) α)) (hb : ∀ b ∈ bs, ∀ i, b.1 i ≤ b.2 i) (hs : SoundOn net m F bs) :
    ∃ us ls, getRangeBox net m batch nSub bs = .ok (us, ls) ∧ us.length = bs.length * d ∧ ls.length = bs.length * d ∧
      ∀ i b, bs[i]? = some b → ∀ c : Fin d, ∃ u l, us[i * d + c]? = some u ∧ ls[i * d + c]? = some l ∧
        ∀ p ∈ Box b.1 b.2, l ≤ F p c ∧ F p c ≤ u := by
  have e : subBoxes nSub bs = (bs, 1) := by unfold subBoxes; rw [if_neg (by omega)]
  rw [getRangeBox_eq net m batch nSub bs hb, e]
  refine ⟨_, _, by simp only [lt_irrefl, if_false]; rfl, by simp [flatRows_length], by simp [flatRows_length], fun i b hi c => ?_⟩
  refine ⟨_, _, flatRows_getElem? _ i _ (by rw [List.getElem?_map, hi]; rfl) c,
    flatRows_getElem? _ i _ (by rw [List.getElem?_map, hi]; rfl) c, fun p hp => ?_⟩
  exact range_sound m b (net b) p hp (F p) (hs b (List.mem_of_getElem? hi) p hp) c

/-- C34: the batch size never changes the result (with or without sub-boxes). -/
theorem C34_batch_size {d : ℕ} (net : BoxOf (Fin (n + 1)) α → Full X (Fin (n + 1)) (Fin d) α) (m : Mode) (batch batch' nSub : ℕ)
    (bs : List (BoxOf (Fin (n + 1)) α)) : getRangeBox net m batch nSub bs = getRangeBox net m batch' nSub bs := by
  by_cases h : ∀ b ∈ bs, GoodBox b
  · rw [getRangeBox_eq net m batch nSub bs h, getRangeBox_eq net m batch' nSub bs h]
  · have : badBoxes bs = true := by
      by_contra hc
      exact h ((not_bad_iff bs).1 (by simpa using hc))
    simp [getRangeBox, this]

/-- C34: an empty box (a negative width) is refused. -/
theorem C34_empty_box {d : ℕ} (net : BoxOf (Fin (n + 1)) α → Full X (Fin (n + 1)) (Fin d) α) (m : Mode) (batch nSub : ℕ)
    (bs : List (BoxOf (Fin (n + 1)) α)) :
    getRangeBox net m batch nSub bs = .error .userWarning ↔ ∃ b ∈ bs, ∃ i, b.2 i < b.1 i := by
  constructor
  · intro h
    by_contra hc
    push Not at hc
    rw [getRangeBox_eq net m batch nSub bs hc] at h
    dsimp only at h
    split at h <;> simp at h
  · rintro ⟨b, hb, i, hi⟩
    have : badBoxes bs = true := by
      by_contra hc
      exact absurd ((not_bad_iff bs).1 (by simpa using hc) b hb i) (not_le.2 hi)
    simp [getRangeBox, this]

omit [IsStrictOrderedRing α] in
theorem subBoxes_split (nSub : ℕ) (hn : 2 ≤ nSub) (bs : List (BoxOf (Fin (n + 1)) α)) (h0 : bs ≠ []) :
    subBoxes nSub bs = (bs.flatMap (refineBoxes true nSub), 2 ^ Nat.log 2 nSub) ∧ 1 < 2 ^ Nat.log 2 nSub := by
  constructor
  · cases bs with
    | nil => exact absurd rfl h0
    | cons b t => simp [subBoxes, show 1 < nSub by omega, refineBoxes_length true nSub (by omega)]
  · exact Nat.one_lt_two_pow (Nat.log_pos (by norm_num) hn).ne'

/-- C36: with sub-boxes and a single output, one sound bound per box is returned.
Missing with respect to the full claim: several outputs, refuted below. -/
theorem C36_one_output_partial (net : BoxOf (Fin (n + 1)) α → Full X (Fin (n + 1)) (Fin 1) α) (m : Mode)
    (F : (Fin (n + 1) → α) → Fin 1 → α) (batch nSub : ℕ) (hn : 2 ≤ nSub) (bs : List (BoxOf (Fin (n + 1)) α))
    (hb : ∀ b ∈ bs, ∀ i, b.1 i ≤ b.2 i) (hs : SoundOn net m F (bs.flatMap (refineBoxes true nSub))) :
    ∃ us ls, getRangeBox net m batch nSub bs = .ok (us, ls) ∧ us.length = bs.length ∧ ls.length = bs.length ∧
      ∀ (i : ℕ) (b : BoxOf (Fin (n + 1)) α), bs[i]? = some b → ∃ u l, us[i]? = some u ∧ ls[i]? = some l ∧ ∀ p ∈ Box b.1 b.2, l ≤ F p 0 ∧ F p 0 ≤ u := by
  rcases eq_or_ne bs [] with rfl | h0
  · rw [getRangeBox_eq net m batch nSub [] (by simp)]
    simp [subBoxes, flatRows]
  obtain ⟨e, hK⟩ := subBoxes_split nSub hn bs h0
  have hflat : ∀ g : BoxOf (Fin (n + 1)) α → Fin 1 → α, flatRows ((bs.flatMap (refineBoxes true nSub)).map g) =
      (bs.map fun b => (refineBoxes true nSub b).map fun c => g c 0).flatten := by
    intro g
    rw [flatRows, List.flatMap_map, List.flatMap_assoc, List.flatMap_def]
    congr 1
    refine List.map_congr_left fun b _ => ?_
    rw [← List.flatMap_pure_eq_map]
    refine List.flatMap_congr fun c _ => ?_
    simp
  have hgroup : ∀ g : BoxOf (Fin (n + 1)) α → Fin 1 → α,
      regroup (2 ^ Nat.log 2 nSub) (flatRows ((bs.flatMap (refineBoxes true nSub)).map g)) =
      bs.map fun b => (refineBoxes true nSub b).map fun c => g c 0 := by
    intro g
    rw [hflat]
    refine regroup_flatten _ (by omega) _ fun l hl => ?_
    obtain ⟨b, -, rfl⟩ := List.mem_map.1 hl
    simp [refineBoxes_length true nSub (by omega)]
  rw [getRangeBox_eq net m batch nSub bs hb, e]
  dsimp only
  rw [if_pos hK, hgroup, hgroup]
  refine ⟨_, _, rfl, by simp, by simp, fun i b hi => ?_⟩
  refine ⟨_, _, by rw [List.getElem?_map, List.getElem?_map, hi]; rfl, by rw [List.getElem?_map, List.getElem?_map, hi]; rfl,
    fun p hp => ?_⟩
  obtain ⟨c, hc, hpc⟩ := (covers_refine nSub b).cover p hp
  have hmem : c ∈ bs.flatMap (refineBoxes true nSub) := List.mem_flatMap.2 ⟨b, List.mem_of_getElem? hi, hc⟩
  have := range_sound m c (net c) p hpc (F p) (hs c hmem p hpc) 0
  exact ⟨(listMin_le (List.mem_map.2 ⟨c, hc, rfl⟩)).trans this.1, this.2.trans (le_listMax (List.mem_map.2 ⟨c, hc, rfl⟩))⟩

end Range

/-- The exact bounds, in ibp mode, of the network `x ↦ (x, 0)` on an interval. -/
def pairNet (b : BoxOf (Fin 1) ℚ) : Full Unit (Fin 1) (Fin 2) ℚ :=
  ⟨(), ![b.2 0, 0], fun _ _ => 0, fun _ => 0, ![b.1 0, 0], fun _ _ => 0, fun _ => 0, fun _ => 0, fun _ => 0⟩

theorem pairNet_sound (bs : List (BoxOf (Fin 1) ℚ)) : SoundOn pairNet .ibp (fun p => ![p 0, 0]) bs := by
  intro b _ p hp
  refine ⟨fun _ k => ?_, by simp [getAffine], by simp⟩
  fin_cases k
  · exact hp 0
  · exact ⟨le_rfl, le_rfl⟩

/-- C36: with two outputs the sub-boxes are regrouped wrongly: for `x ↦ (x, 0)` on `[0,1]` in two sub-boxes, the upper bound returned
for output 0 is `1/2`, although the value at `x = 1` is `1`. -/
theorem C36_two_outputs_refuted :
    getRangeBox pairNet .ibp 0 2 [(fun _ => 0, fun _ => 1)] = .ok ([1 / 2, 1], [0, 0]) ∧ ¬ ((1 : ℚ) ≤ 1 / 2) := by
  constructor
  · decide +kernel
  · norm_num

/-- Cases of C34 and C36: the bounds of `(x, 0)` on two boxes, and those of `x` with two sub-boxes per box. -/
example : ∃ us ls, getRangeBox pairNet .ibp 1 1 [(fun _ => 0, fun _ => 1), (fun _ => 2, fun _ => 3)] = .ok (us, ls) ∧ us.length = 2 * 2 := by
  obtain ⟨us, ls, h, hl, _⟩ := C34_range_sound pairNet .ibp (fun p => ![p 0, 0]) 1 1 le_rfl
    [(fun _ => 0, fun _ => 1), (fun _ => 2, fun _ => 3)] (by decide +kernel) (pairNet_sound _)
  exact ⟨us, ls, h, hl⟩

example : getRangeBox pairNet .ibp 1 1 [(fun _ => 0, fun _ => 1), (fun _ => 3, fun _ => 2)] = .error .userWarning :=
  (C34_empty_box pairNet .ibp 1 1 _).mpr ⟨(fun _ => 3, fun _ => 2), by simp, 0, by norm_num⟩

example : ∃ us ls, getRangeBox (fun b : BoxOf (Fin 1) ℚ => (⟨(), fun _ => b.2 0, fun _ _ => 0, fun _ => 0, fun _ => b.1 0, fun _ _ => 0, fun _ => 0, fun _ => 0,
      fun _ => 0⟩ : Full Unit (Fin 1) (Fin 1) ℚ)) .ibp 0 2 [(fun _ => 0, fun _ => 1)] = .ok (us, ls) ∧
    ∃ u l, us[0]? = some u ∧ ls[0]? = some l ∧ ∀ p : Fin 1 → ℚ, p ∈ Box (fun _ => 0) (fun _ => 1) → l ≤ p 0 ∧ p 0 ≤ u := by
  obtain ⟨us, ls, h, _, _, h'⟩ := C36_one_output_partial (fun b : BoxOf (Fin 1) ℚ => (⟨(), fun _ => b.2 0, fun _ _ => 0, fun _ => 0, fun _ => b.1 0,
    fun _ _ => 0, fun _ => 0, fun _ => 0, fun _ => 0⟩ : Full Unit (Fin 1) (Fin 1) ℚ)) .ibp (fun p _ => p 0) 0 2 le_rfl [(fun _ => 0, fun _ => 1)]
    (by decide +kernel) fun b _ p hp => ⟨fun _ _ => hp 0, by simp [getAffine], by simp⟩
  exact ⟨us, ls, h, h' 0 _ rfl⟩

/-- Non-vacuity of C34 and of C36: the network above meets the hypotheses; without sub-boxes the bounds are right. -/
example : getRangeBox pairNet .ibp 1 1 [(fun _ => 0, fun _ => 1), (fun _ => 2, fun _ => 3)] = .ok ([1, 0, 3, 0], [0, 0, 2, 0]) := by
  decide +kernel

/-! ### C33, C72: get_adv_box -/

section Adv
variable {n : ℕ} {X ι κ α : Type*} [Fintype κ] [Nonempty κ] [Field α] [LinearOrder α] [IsStrictOrderedRing α]

/-- Labels are 0/1 vectors. -/
def ZeroOne (v : κ → α) : Prop := ∀ k, v k = 0 ∨ v k = 1

theorem masked_bounds (rows : List ((κ → κ → α) × (κ → α) × (κ → α))) (r : (κ → κ → α) × (κ → α) × (κ → α)) (hr : r ∈ rows) (t s : κ) :
    listMin (rows.map fun r => minOver fun ts : κ × κ => r.1 ts.1 ts.2) ≤ r.1 t s ∧
    r.1 t s ≤ listMax (rows.map fun r => maxOver fun ts : κ × κ => r.1 ts.1 ts.2) :=
  ⟨(listMin_le (List.mem_map.2 ⟨r, hr, rfl⟩)).trans (minOver_le (fun ts : κ × κ => r.1 ts.1 ts.2) (t, s)),
    (le_maxOver (fun ts : κ × κ => r.1 ts.1 ts.2) (t, s)).trans (le_listMax (List.mem_map.2 ⟨r, hr, rfl⟩))⟩

/-- The set of the values of `upper` on the (target, source) pairs. -/
def pairValues (r : (κ → κ → α) × (κ → α) × (κ → α)) : Set α := {v | ∃ t s, r.2.2 t = 1 ∧ r.2.1 s = 1 ∧ v = r.1 t s}

/-- C33: the score of each sample is an upper bound of the values on its (target, source) pairs; it is the largest of them when there is
one. -/
theorem C33_mask_exact (rows : List ((κ → κ → α) × (κ → α) × (κ → α))) :
    List.Forall₂ (fun r sc => (∀ v ∈ pairValues r, v ≤ sc) ∧
      (ZeroOne r.2.1 → ZeroOne r.2.2 → (pairValues r).Nonempty → IsGreatest (pairValues r) sc)) rows (maskedScores rows) := by
  unfold maskedScores
  rw [List.forall₂_map_right_iff, List.forall₂_same]
  intro r hr
  have hb := masked_bounds rows r hr
  generalize listMax (rows.map fun r => maxOver fun ts : κ × κ => r.1 ts.1 ts.2) = hi at *
  generalize listMin (rows.map fun r => minOver fun ts : κ × κ => r.1 ts.1 ts.2) = lo at *
  have h1 : ∀ v ∈ pairValues r, v ≤ maxOver fun ts : κ × κ => r.1 ts.1 ts.2 - (1 - r.2.2 ts.1 * r.2.1 ts.2) * (hi - lo + 1 / 10) := by
    rintro v ⟨t, s, ht, hs, rfl⟩
    refine le_trans ?_ (le_maxOver (fun ts : κ × κ => r.1 ts.1 ts.2 - (1 - r.2.2 ts.1 * r.2.1 ts.2) * (hi - lo + 1 / 10)) (t, s))
    simp [ht, hs]
  refine ⟨h1, fun z1 z2 ⟨v, hv⟩ => ⟨?_, fun v hv => h1 v hv⟩⟩
  obtain ⟨⟨t, s⟩, e⟩ := exists_maxOver fun ts : κ × κ => r.1 ts.1 ts.2 - (1 - r.2.2 ts.1 * r.2.1 ts.2) * (hi - lo + 1 / 10)
  by_cases h : r.2.2 t = 1 ∧ r.2.1 s = 1
  · exact ⟨t, s, h.1, h.2, by rw [e]; simp [h.1, h.2]⟩
  · exfalso
    have hz : r.2.2 t * r.2.1 s = 0 := by
      rcases z2 t with h2 | h2
      · simp [h2]
      · rcases z1 s with h3 | h3
        · simp [h3]
        · exact absurd ⟨h2, h3⟩ h
    have hle := h1 v hv
    rw [e] at hle
    simp only [hz, sub_zero, one_mul] at hle
    obtain ⟨t', s', _, _, rfl⟩ := hv
    have a := hb t s
    have b := hb t' s'
    have : (0 : α) < 1 / 10 := by norm_num
    linarith [a.2, b.1]

/-- The conclusion a user draws from a score: it bounds the margin `F p t s` of every (target, source) pair on the box. -/
def Certifies [Fintype ι] (F : (ι → α) → κ → κ → α) (r : AdvSample ι κ α) (sc : α) : Prop :=
  ∀ p ∈ Box r.box.1 r.box.2, ∀ t s, r.tgt t = 1 → r.src s = 1 → F p t s ≤ sc

theorem ibpPair_sound [Fintype ι] (f : Full X ι κ α) (m : Mode) (hm : getIbp m = true) (p : ι → α) (y : κ → α) (v : Valid m false f p y)
    (t s : κ) : y t - y s ≤ ibpPair f t s := by
  have := v.const hm
  unfold ibpPair
  linarith [(this t).2, (this s).1]

theorem affinePair_sound [Fintype ι] (b : BoxOf ι α) (f : Full X ι κ α) (m : Mode) (hm : getAffine m = true) (p : ι → α)
    (hp : p ∈ Box b.1 b.2) (y : κ → α) (v : Valid m false f p y) (t s : κ) : y t - y s ≤ affinePair b f t s := by
  have h := getUpperBox_sound hp (fun i => f.wu i t - f.wl i s) (f.bu t - f.bl s)
  have e : affEval (fun i => f.wu i t - f.wl i s) (f.bu t - f.bl s) p =
      affEval (fun i => f.wu i t) (f.bu t) p - affEval (fun i => f.wl i s) (f.bl s) p := by
    simp only [affEval, sub_mul, Finset.sum_sub_distrib]; ring
  have := v.aff hm
  unfold affinePair
  linarith [(this t).2, (this s).1]

/-- The differences of bounds that `get_adv_box` computes on a box are above the margins. -/
def MarginOn [Fintype ι] (net : BoxOf ι α → Full X ι κ α) (m : Mode) (F : (ι → α) → κ → κ → α) (bs : List (BoxOf ι α)) : Prop :=
  ∀ b ∈ bs, ∀ p ∈ Box b.1 b.2, ∀ t s, (getIbp m = true → F p t s ≤ ibpPair (net b) t s) ∧ (getAffine m = true → F p t s ≤ affinePair b (net b) t s)

theorem advBase_certifies [Fintype ι] (net : BoxOf ι α → Full X ι κ α) (m : Mode) (F : (ι → α) → κ → κ → α) (rows : List (AdvSample ι κ α))
    (hb : ∀ r ∈ rows, GoodBox r.box) (hs : MarginOn net m F (rows.map AdvSample.box)) :
    ∃ scs, advBase net m rows = .ok scs ∧ List.Forall₂ (Certifies F) rows scs := by
  have hgood : badBoxes (rows.map AdvSample.box) = false := (not_bad_iff _).2 (by simpa using hb)
  have key : ∀ (pair : AdvSample ι κ α → κ → κ → α),
      (∀ r ∈ rows, ∀ p ∈ Box r.box.1 r.box.2, ∀ t s, F p t s ≤ pair r t s) →
      List.Forall₂ (Certifies F) rows (maskedScores (rows.map fun r => (pair r, r.src, r.tgt))) := by
    intro pair hp
    have := C33_mask_exact (rows.map fun r => (pair r, r.src, r.tgt))
    rw [List.forall₂_map_left_iff] at this
    rw [List.forall₂_iff_get] at this ⊢
    refine ⟨this.1, fun i h1 h2 p hpp t s ht hss => ?_⟩
    exact (hp _ (List.get_mem rows _) p hpp t s).trans ((this.2 i h1 h2).1 _ ⟨t, s, ht, hss, rfl⟩)
  have hv := fun r hr => hs r.box (List.mem_map.2 ⟨r, hr, rfl⟩)
  have hi : getIbp m = true → List.Forall₂ (Certifies F) rows (maskedScores (rows.map fun r => (ibpPair (net r.box), r.src, r.tgt))) :=
    fun hm => key (fun r => ibpPair (net r.box)) fun r hr p hp t s => (hv r hr p hp t s).1 hm
  have ha : getAffine m = true →
      List.Forall₂ (Certifies F) rows (maskedScores (rows.map fun r => (affinePair r.box (net r.box), r.src, r.tgt))) :=
    fun hm => key (fun r => affinePair r.box (net r.box)) fun r hr p hp t s => (hv r hr p hp t s).2 hm
  unfold advBase
  rw [hgood]
  simp only [Bool.false_eq_true, if_false]
  cases m with
  | ibp => exact ⟨_, rfl, hi rfl⟩
  | affine => exact ⟨_, rfl, ha rfl⟩
  | hybrid =>
    refine ⟨_, rfl, ?_⟩
    have h1 := hi rfl
    have h2 := ha rfl
    rw [List.forall₂_iff_get] at h1 h2 ⊢
    refine ⟨by simp [← h1.1, ← h2.1], fun i g1 g2 p hp t s ht hss => ?_⟩
    have a := h1.2 i g1 (h1.1 ▸ g1) p hp t s ht hss
    have b := h2.2 i g1 (h2.1 ▸ g1) p hp t s ht hss
    simp only [List.get_eq_getElem, List.getElem_zipWith] at a b ⊢
    exact le_min a b

omit [Fintype κ] [Nonempty κ] [Field α] [LinearOrder α] [IsStrictOrderedRing α] in
theorem forall₂_collect {σ τ : Type*} (R : σ → τ → Prop) (g : List σ → Except PyErr (List τ)) (ls : List (List σ))
    (h : ∀ l ∈ ls, ∃ r, g l = .ok r ∧ List.Forall₂ R l r) :
    ∃ rs, collect (ls.map g) = .ok rs ∧ List.Forall₂ R ls.flatten rs.flatten := by
  induction ls with
  | nil => exact ⟨[], rfl, by simp⟩
  | cons a t ih =>
    obtain ⟨r, h1, h2⟩ := h a (by simp)
    obtain ⟨rs, h3, h4⟩ := ih fun l hl => h l (by simp [hl])
    exact ⟨r :: rs, by simp [collect, h1, h3], by simpa using List.rel_append h2 h4⟩

omit [Fintype κ] [Nonempty κ] [Field α] [LinearOrder α] [IsStrictOrderedRing α] in
theorem forall₂_groups {σ τ ρ : Type*} (R : σ → τ → Prop) (g : ρ → List σ) (rows : List ρ) (scs : List τ)
    (h : List.Forall₂ R (rows.flatMap g) scs) :
    ∃ groups, scs = groups.flatten ∧ List.Forall₂ (fun r grp => List.Forall₂ R (g r) grp) rows groups := by
  induction rows generalizing scs with
  | nil =>
    refine ⟨[], ?_, .nil⟩
    simpa using h
  | cons a t ih =>
    rw [List.flatMap_cons] at h
    have h1 := List.forall₂_take_append scs (g a) (t.flatMap g) h.flip |>.flip
    have h2 := List.forall₂_drop_append scs (g a) (t.flatMap g) h.flip |>.flip
    obtain ⟨gs, e, hg⟩ := ih _ h2
    exact ⟨scs.take (g a).length :: gs, by rw [List.flatten_cons, ← e, List.take_append_drop], .cons h1 hg⟩

/-- The samples on which the model is evaluated. -/
def advSub (nSub : ℕ) (rows : List (AdvSample (Fin (n + 1)) κ α)) : List (AdvSample (Fin (n + 1)) κ α) :=
  if 1 < nSub then rows.flatMap (fun r => (refineBoxes true nSub r.box).map fun b => ⟨b, r.src, r.tgt⟩) else rows

/-- The scores of `get_adv_box`, with or without sub-boxes, bound the margins. -/
theorem adv_margin (net : BoxOf (Fin (n + 1)) α → Full X (Fin (n + 1)) κ α) (m : Mode) (F : (Fin (n + 1) → α) → κ → κ → α)
    (batch nSub : ℕ) (rows : List (AdvSample (Fin (n + 1)) κ α)) (hb : ∀ r ∈ rows, ∀ i, r.box.1 i ≤ r.box.2 i)
    (hs : MarginOn net m F (subBoxes nSub (rows.map AdvSample.box)).1) :
    ∃ scs, getAdvBox net m batch nSub rows = .ok scs ∧ List.Forall₂ (Certifies F) rows scs := by
  have hgood : badBoxes (rows.map AdvSample.box) = false := (not_bad_iff _).2 (fun b hb' => by obtain ⟨r, hr, rfl⟩ := List.mem_map.1 hb'; exact hb r hr)
  have hbox : (advSub nSub rows).map AdvSample.box = (subBoxes nSub (rows.map AdvSample.box)).1 := by
    unfold advSub subBoxes
    split
    · simp [List.map_flatMap, List.flatMap_map, Function.comp_def]
    · rfl
  have hsubgood : ∀ r ∈ advSub nSub rows, GoodBox r.box := by
    intro r hr
    refine subBoxes_good nSub (rows.map AdvSample.box) (fun b hb' => by obtain ⟨r, hr, rfl⟩ := List.mem_map.1 hb'; exact hb r hr) r.box ?_
    rw [← hbox]
    exact List.mem_map.2 ⟨r, hr, rfl⟩
  have key : ∃ rs, (if 0 < batch then collect ((batches batch (advSub nSub rows)).map (advBase net m))
        else collect [advBase net m (advSub nSub rows)]) = .ok rs ∧ List.Forall₂ (Certifies F) (advSub nSub rows) rs.flatten := by
    split
    · rename_i h
      have := forall₂_collect (Certifies F) (advBase net m) (batches batch (advSub nSub rows)) (fun l hl => by
        have hmem : ∀ r ∈ l, r ∈ advSub nSub rows := fun r hr => by
          rw [← batches_flatten batch h (advSub nSub rows)]; exact List.mem_flatten.2 ⟨l, hl, hr⟩
        refine advBase_certifies net m F l (fun r hr => hsubgood r (hmem r hr)) fun b hb => ?_
        obtain ⟨r, hr, rfl⟩ := List.mem_map.1 hb
        exact hs r.box (by rw [← hbox]; exact List.mem_map.2 ⟨r, hmem r hr, rfl⟩))
      rwa [batches_flatten batch h] at this
    · have := forall₂_collect (Certifies F) (advBase net m) [advSub nSub rows] (fun l hl => by
        rw [List.mem_singleton.1 hl]
        exact advBase_certifies net m F _ hsubgood (by rw [hbox]; exact hs))
      simpa using this
  obtain ⟨rs, h1, h2⟩ := key
  unfold getAdvBox
  rw [hgood]
  simp only [Bool.false_eq_true, if_false]
  unfold advSub at h1
  rw [h1]
  dsimp only
  by_cases hn : 1 < nSub
  · rcases eq_or_ne rows [] with rfl | h0
    · have : rs.flatten = [] := by
        have : advSub nSub ([] : List (AdvSample (Fin (n + 1)) κ α)) = [] := by simp [advSub]
        rw [this] at h2
        simpa using h2
      simp [this, regroup, subBoxes, hn]
    · obtain ⟨e, hK⟩ := subBoxes_split nSub hn (rows.map AdvSample.box) (by simpa using h0)
      rw [e]
      dsimp only
      rw [if_pos hK]
      unfold advSub at h2
      rw [if_pos hn] at h2
      obtain ⟨groups, hg1, hg2⟩ := forall₂_groups (Certifies F) _ rows _ h2
      have hlen : ∀ l ∈ groups, l.length = 2 ^ Nat.log 2 nSub := by
        intro l hl
        obtain ⟨i, hi, rfl⟩ := List.getElem_of_mem hl
        rw [List.forall₂_iff_get] at hg2
        have := (hg2.2 i (hg2.1 ▸ hi) hi).length_eq
        simp only [List.length_map, List.get_eq_getElem] at this
        rw [← this, refineBoxes_length true nSub (by omega)]
      refine ⟨_, rfl, ?_⟩
      rw [hg1, regroup_flatten _ (by omega) groups hlen, List.forall₂_map_right_iff]
      refine hg2.imp fun r grp hgrp p hp t s ht hss => ?_
      obtain ⟨c, hc, hpc⟩ := (covers_refine nSub r.box).cover p hp
      rw [List.forall₂_map_left_iff] at hgrp
      obtain ⟨i, hi, rfl⟩ := List.getElem_of_mem hc
      rw [List.forall₂_iff_get] at hgrp
      have := hgrp.2 i hi (hgrp.1 ▸ hi) p hpc t s ht hss
      exact this.trans (le_listMax (List.get_mem grp _))
  · have e : subBoxes nSub (rows.map AdvSample.box) = (rows.map AdvSample.box, 1) := by unfold subBoxes; rw [if_neg hn]
    rw [e]
    refine ⟨_, by simp only [lt_irrefl, if_false]; rfl, ?_⟩
    unfold advSub at h2
    rw [if_neg hn] at h2
    exact h2

/-- C33: whatever the batch size and the number of sub-boxes, the score of a sample bounds from above the margin `F t - F s` of every
target `t` and source `s` on the whole box. -/
theorem C33_adv_box_bounds (net : BoxOf (Fin (n + 1)) α → Full X (Fin (n + 1)) κ α) (m : Mode) (F : (Fin (n + 1) → α) → κ → α)
    (batch nSub : ℕ) (rows : List (AdvSample (Fin (n + 1)) κ α)) (hb : ∀ r ∈ rows, ∀ i, r.box.1 i ≤ r.box.2 i)
    (hs : SoundOn net m F (subBoxes nSub (rows.map AdvSample.box)).1) :
    ∃ scs, getAdvBox net m batch nSub rows = .ok scs ∧ List.Forall₂ (fun (r : AdvSample (Fin (n + 1)) κ α) sc =>
      ∀ p ∈ Box r.box.1 r.box.2, ∀ t s, r.tgt t = 1 → r.src s = 1 → F p t - F p s ≤ sc) rows scs :=
  adv_margin net m (fun p t s => F p t - F p s) batch nSub rows hb fun b hb' p hp t s =>
    ⟨fun hm => ibpPair_sound _ m hm p _ (hs b hb' p hp) t s, fun hm => affinePair_sound _ _ m hm p hp _ (hs b hb' p hp) t s⟩

/-- C33: the documented guarantee: a negative score means that no target is ever predicted over a source on the box. -/
theorem C33_negative_is_robust (net : BoxOf (Fin (n + 1)) α → Full X (Fin (n + 1)) κ α) (m : Mode) (F : (Fin (n + 1) → α) → κ → α)
    (batch nSub : ℕ) (rows : List (AdvSample (Fin (n + 1)) κ α)) (hb : ∀ r ∈ rows, ∀ i, r.box.1 i ≤ r.box.2 i)
    (hs : SoundOn net m F (subBoxes nSub (rows.map AdvSample.box)).1) :
    ∃ scs, getAdvBox net m batch nSub rows = .ok scs ∧ scs.length = rows.length ∧
      ∀ (i : ℕ) (r : AdvSample (Fin (n + 1)) κ α) (sc : α), rows[i]? = some r → scs[i]? = some sc → sc < 0 →
        ∀ p ∈ Box r.box.1 r.box.2, ∀ t s, r.tgt t = 1 → r.src s = 1 → F p t < F p s := by
  obtain ⟨scs, h1, h2⟩ := C33_adv_box_bounds net m F batch nSub rows hb hs
  refine ⟨scs, h1, h2.length_eq.symm, fun i r sc hr hsc hneg p hp t s ht hss => ?_⟩
  obtain ⟨i1, rfl⟩ := List.getElem?_eq_some_iff.1 hr
  obtain ⟨i2, rfl⟩ := List.getElem?_eq_some_iff.1 hsc
  rw [List.forall₂_iff_get] at h2
  have := h2.2 i i1 i2 p hp t s ht hss
  simp only [List.get_eq_getElem] at this
  linarith

/-- C72: the score of a sample does not depend on the other samples of the batch, provided each sample has a (target, source) pair
(in ibp and affine mode it is the largest bound over its pairs; in hybrid mode the minimum of two such numbers).
Missing with respect to the full claim: a sample without any pair, refuted below. -/
theorem C72_independent_partial [Fintype ι] (net : BoxOf ι α → Full X ι κ α) (m : Mode) :
    ∃ score : AdvSample ι κ α → α, ∀ rows : List (AdvSample ι κ α), (∀ r ∈ rows, ∀ i, r.box.1 i ≤ r.box.2 i) →
      (∀ r ∈ rows, ZeroOne r.src ∧ ZeroOne r.tgt ∧ ∃ t s, r.tgt t = 1 ∧ r.src s = 1) →
      advBase net m rows = .ok (rows.map score) := by
  classical
  let great : (κ → κ → α) × (κ → α) × (κ → α) → α := fun r => if h : ∃ v, IsGreatest (pairValues r) v then h.choose else 0
  have hgr : ∀ r v, IsGreatest (pairValues r) v → v = great r := by
    intro r v hv
    have h : ∃ v, IsGreatest (pairValues r) v := ⟨v, hv⟩
    simp only [great, dif_pos h]
    exact hv.unique h.choose_spec
  have key : ∀ (rows : List (AdvSample ι κ α)) (pair : AdvSample ι κ α → κ → κ → α),
      (∀ r ∈ rows, ZeroOne r.src ∧ ZeroOne r.tgt ∧ ∃ t s, r.tgt t = 1 ∧ r.src s = 1) →
      maskedScores (rows.map fun r => (pair r, r.src, r.tgt)) = rows.map fun r => great (pair r, r.src, r.tgt) := by
    intro rows pair h
    have := C33_mask_exact (rows.map fun r => (pair r, r.src, r.tgt))
    rw [List.forall₂_map_left_iff, List.forall₂_iff_get] at this
    apply List.ext_getElem (by simp [← this.1])
    intro i h1 h2
    have hi : i < rows.length := by simpa using h2
    obtain ⟨z1, z2, t, s, ht, hss⟩ := h rows[i] (List.getElem_mem hi)
    have := (this.2 i hi h1).2 z1 z2 ⟨_, t, s, ht, hss, rfl⟩
    simp only [List.get_eq_getElem] at this
    rw [List.getElem_map]
    exact hgr _ _ this
  refine ⟨fun r => match m with
    | .ibp => great (ibpPair (net r.box), r.src, r.tgt)
    | .affine => great (affinePair r.box (net r.box), r.src, r.tgt)
    | .hybrid => min (great (ibpPair (net r.box), r.src, r.tgt)) (great (affinePair r.box (net r.box), r.src, r.tgt)), ?_⟩
  intro rows hb h
  have hgood : badBoxes (rows.map AdvSample.box) = false := (not_bad_iff _).2 (fun b hb' => by obtain ⟨r, hr, rfl⟩ := List.mem_map.1 hb'; exact hb r hr)
  have k1 := key rows (fun r => ibpPair (net r.box)) h
  have k2 := key rows (fun r => affinePair r.box (net r.box)) h
  unfold advBase
  rw [hgood]
  simp only [Bool.false_eq_true, if_false, k1, k2]
  cases m with
  | ibp => rfl
  | affine => rfl
  | hybrid =>
    simp only [List.zipWith_map, List.zipWith_self]

end Adv

/-- Bounds of the constant network with outputs `v`, in ibp mode, loosened by `slack`. -/
def constNet {κ : Type*} (v : κ → ℚ) (slack : ℚ) (_ : BoxOf (Fin 1) ℚ) : Full Unit (Fin 1) κ ℚ :=
  ⟨(), fun k => v k + slack, fun _ _ => 0, fun _ => 0, fun k => v k - slack, fun _ _ => 0, fun _ => 0, fun _ => 0, fun _ => 0⟩

theorem constNet_sound {κ : Type*} (v : κ → ℚ) (slack : ℚ) (h : 0 ≤ slack) (bs : List (BoxOf (Fin 1) ℚ)) :
    SoundOn (constNet v slack) .ibp (fun _ => v) bs := by
  intro b _ p _
  refine ⟨fun _ k => ⟨?_, ?_⟩, by simp [getAffine], by simp⟩ <;> simp [constNet, h]

/-- A sample over `[0,1]` with one-hot source 0 and every other output as target. -/
def sample0 : AdvSample (Fin 1) (Fin 2) ℚ := ⟨(fun _ => 0, fun _ => 1), ![1, 0], ![0, 1]⟩

/-- Non-vacuity of C33: outputs `(3, 1)`, source 0: score `-2`, with any batch size and sub-boxes. -/
example : getAdvBox (constNet ![3, 1] 0) .ibp 0 1 [sample0, sample0] = .ok [-2, -2] ∧
    getAdvBox (constNet ![3, 1] 0) .ibp 1 2 [sample0, sample0] = .ok [-2, -2] := by
  constructor <;> decide +kernel

/-- C33: end to end for a model converted by `forward-ibp`: whatever the network, the batch size and the number of sub-boxes, a negative
score proves that no target beats a source anywhere in the box. -/
theorem C33_forward_ibp {n : ℕ} {κ : Type} {α : Type} [Fintype κ] [Nonempty κ] [Field α] [LinearOrder α] [IsStrictOrderedRing α]
    (eps : α) (he : 0 < eps) (slope : Slope) (N : Net α (Fin (n + 1)) κ) (hN : N.WF) (batch nSub : ℕ)
    (rows : List (AdvSample (Fin (n + 1)) κ α)) (hb : ∀ r ∈ rows, ∀ i, r.box.1 i ≤ r.box.2 i) :
    ∃ scs, getAdvBox (fun b => N.forward boxDomain .ibp eps slope (inputTensorsBox .ibp b.1 b.2)) .ibp batch nSub rows = .ok scs ∧
      scs.length = rows.length ∧
      ∀ (i : ℕ) (r : AdvSample (Fin (n + 1)) κ α) (sc : α), rows[i]? = some r → scs[i]? = some sc → sc < 0 →
        ∀ p ∈ Box r.box.1 r.box.2, ∀ t s, r.tgt t = 1 → r.src s = 1 → N.eval p t < N.eval p s :=
  C33_negative_is_robust _ .ibp (fun p => N.eval p) batch nSub rows hb fun b _ p hp =>
    ⟨fun _ k => C27_box_ibp eps he slope b.1 b.2 N hN p hp k, by simp [getAffine], by simp⟩

/-- C34: end to end for a model converted by `forward-ibp` (without sub-boxes). -/
theorem C34_forward_ibp {n d : ℕ} {α : Type} [Field α] [LinearOrder α] [IsStrictOrderedRing α]
    (eps : α) (he : 0 < eps) (slope : Slope) (N : Net α (Fin (n + 1)) (Fin d)) (hN : N.WF) (batch nSub : ℕ) (h1 : nSub ≤ 1)
    (bs : List (BoxOf (Fin (n + 1)) α)) (hb : ∀ b ∈ bs, ∀ i, b.1 i ≤ b.2 i) :
    ∃ us ls, getRangeBox (fun b => N.forward boxDomain .ibp eps slope (inputTensorsBox .ibp b.1 b.2)) .ibp batch nSub bs = .ok (us, ls) ∧
      us.length = bs.length * d ∧ ls.length = bs.length * d ∧
      ∀ (i : ℕ) (b : BoxOf (Fin (n + 1)) α), bs[i]? = some b → ∀ c : Fin d, ∃ u l, us[i * d + c]? = some u ∧ ls[i * d + c]? = some l ∧
        ∀ p ∈ Box b.1 b.2, l ≤ N.eval p c ∧ N.eval p c ≤ u :=
  C34_range_sound _ .ibp (fun p => N.eval p) batch nSub h1 bs hb fun b _ p hp =>
    ⟨fun _ k => C27_box_ibp eps he slope b.1 b.2 N hN p hp k, by simp [getAffine], by simp⟩

/-- Bounds, in ibp mode, of the network `x ↦ (x, -x)` on an interval. -/
def symNet (b : BoxOf (Fin 1) ℚ) : Full Unit (Fin 1) (Fin 2) ℚ :=
  ⟨(), ![b.2 0, - b.1 0], fun _ _ => 0, fun _ => 0, ![b.1 0, - b.2 0], fun _ _ => 0, fun _ => 0, fun _ => 0, fun _ => 0⟩

/-- C72: a sample without target gets a score that depends on the rest of the batch: the same sample, alone or with another one. -/
theorem C72_no_target_refuted :
    let a : AdvSample (Fin 1) (Fin 2) ℚ := ⟨(fun _ => 0, fun _ => 1), ![1, 0], ![0, 0]⟩
    let b : AdvSample (Fin 1) (Fin 2) ℚ := ⟨(fun _ => 5, fun _ => 6), ![1, 0], ![0, 1]⟩
    advBase symNet .ibp [a] = .ok [-1 / 10] ∧ advBase symNet .ibp [a, b] = .ok [-201 / 10, -10] := by
  constructor <;> decide +kernel

/-- Cases of C33 and C72: the constant network `(3, 1)`, source 0 and target 1; the score `-2` bounds the margin and certifies. -/
example : ∃ scs, getAdvBox (constNet ![3, 1] 0) .ibp 1 2 [sample0, sample0] = .ok scs ∧
    List.Forall₂ (fun (r : AdvSample (Fin 1) (Fin 2) ℚ) sc => ∀ p ∈ Box r.box.1 r.box.2, ∀ t s, r.tgt t = 1 → r.src s = 1 →
      ![(3 : ℚ), 1] t - ![3, 1] s ≤ sc) [sample0, sample0] scs :=
  C33_adv_box_bounds _ .ibp (fun _ => ![3, 1]) 1 2 _ (by decide +kernel) (constNet_sound _ 0 le_rfl _)

example : ∃ scs, getAdvBox (constNet ![3, 1] 0) .ibp 1 2 [sample0, sample0] = .ok scs ∧ scs.length = 2 := by
  obtain ⟨scs, h, hl, _⟩ := C33_negative_is_robust (constNet ![3, 1] 0) .ibp (fun _ => ![3, 1]) 1 2 [sample0, sample0] (by decide +kernel)
    (constNet_sound _ 0 le_rfl _)
  exact ⟨scs, h, hl⟩

example : ∃ score, advBase (constNet ![3, 1] 0) .ibp [sample0, sample0] = .ok [score, score] := by
  obtain ⟨score, h⟩ := C72_independent_partial (constNet ![3, 1] 0) .ibp
  exact ⟨score sample0, h [sample0, sample0] (by decide +kernel) (by unfold ZeroOne; decide +kernel)⟩

/-- The same for a converted network, `(relu (1 - 2 x) + x, relu (1 - 2 x) + x)` and the range of `relu (1 - 2 x) + x`. -/
example : ∃ scs, getAdvBox (fun b => (Net.layer exampleNet (.dense (fun _ (o : Fin 2) => ![2, 1] o) fun o => ![9, 0] o)).forward boxDomain .ibp (1 / 10000000) .vSlope
      (inputTensorsBox .ibp b.1 b.2)) .ibp 1 2 [sample0] = .ok scs ∧ scs.length = 1 := by
  obtain ⟨scs, h, hl, _⟩ := C33_forward_ibp (1 / 10000000) (by norm_num) .vSlope
    (Net.layer exampleNet (.dense (fun _ (o : Fin 2) => ![2, 1] o) fun o => ![9, 0] o)) (by simp [exampleNet, Net.WF, Lay.WF]) 1 2 [sample0] (by decide +kernel)
  exact ⟨scs, h, hl⟩

example : ∃ us ls, getRangeBox (fun b => exampleNet.forward boxDomain .ibp (1 / 10000000) .vSlope (inputTensorsBox .ibp b.1 b.2)) .ibp 1 1
    [(fun _ => -1, fun _ => 1)] = .ok (us, ls) ∧ ∃ u l, us[0]? = some u ∧ ls[0]? = some l ∧
      ∀ p ∈ Box (fun _ => -1) (fun _ => 1), l ≤ exampleNet.eval p 0 ∧ exampleNet.eval p 0 ≤ u := by
  obtain ⟨us, ls, h, _, _, h'⟩ := C34_forward_ibp (1 / 10000000) (by norm_num) .vSlope exampleNet (by simp [exampleNet, Net.WF, Lay.WF]) 1 1 le_rfl
    [(fun _ => -1, fun _ => 1)] (by decide +kernel)
  exact ⟨us, ls, h, h' 0 _ rfl 0⟩

/-! ### C41: models with backward bounds -/

section Back
variable {κ α : Type*} [Fintype κ] [Nonempty κ] [DecidableEq κ] [Field α] [LinearOrder α] [IsStrictOrderedRing α]

omit [LinearOrder α] [IsStrictOrderedRing α] [Nonempty κ] in
theorem back_column (src y : κ → α) (j : κ) : ∑ i, y i * advBackMatrix src i j = y j - ∑ i, y i * src i := by
  simp [advBackMatrix, mul_sub, Finset.sum_sub_distrib]

/-- C41: with a one-hot source the score bounds the margin of every other output, so a negative score is a guarantee.
Missing with respect to the full claim: several source labels, refuted below. -/
theorem C41_one_hot_partial (s : κ) (y u : κ → α) (hu : ∀ j, ∑ i, y i * advBackMatrix (fun i => if i = s then 1 else 0) i j ≤ u j)
    (t : κ) : y t - y s ≤ advBackScore u := by
  have h := (hu t).trans (le_maxOver u t)
  rw [back_column] at h
  simpa [advBackScore] using h

/-- C41: but the score is never negative: the column of the source itself is zero.  No sample can be certified. -/
theorem C41_never_certifies_refuted (s : κ) (y u : κ → α)
    (hu : ∀ j, ∑ i, y i * advBackMatrix (fun i => if i = s then 1 else 0) i j ≤ u j) : 0 ≤ advBackScore u := by
  have h := (hu s).trans (le_maxOver u s)
  rw [back_column] at h
  simpa [advBackScore] using h

end Back

/-- C41: with two source labels the score can be negative although a target beats a source: outputs `(3, 2, 2)`, sources 1 and 2,
exact bounds: score `-1`. -/
theorem C41_two_sources_refuted :
    let y : Fin 3 → ℚ := ![3, 2, 2]
    advBackScore (fun j => ∑ i, y i * advBackMatrix ![0, 1, 1] i j) = -1 ∧ y 1 < y 0 := by
  constructor <;> decide +kernel

/-- A case of C41: outputs `(3, 2, 2)` with source 1. -/
example : (3 : ℚ) - 2 ≤ advBackScore (![1, 0, 0] : Fin 3 → ℚ) := C41_one_hot_partial (1 : Fin 3) ![3, 2, 2] ![1, 0, 0] (by decide +kernel) 0

/-! ### C73: integer labels -/

/-- C73: a label given as an integer is accepted only for a single output or when the batch has as many samples as outputs. -/
theorem C73_integer_labels_raise_partial {α : Type*} [Field α] (nBatch nOut : ℕ) (c : α) (hb : 0 < nBatch) (ho : 0 < nOut) :
    (∃ v, intLabelMask nBatch nOut c = .ok v) ↔ nOut = 1 ∨ nBatch = nOut := by
  unfold intLabelMask
  constructor
  · rintro ⟨v, h⟩
    split at h
    · simp at h
    · rename_i hm
      split at h
      · rename_i hd
        have hm : nBatch % nOut = 0 := by simpa using hm
        have e := Nat.div_add_mod nBatch nOut
        rw [hm, Nat.add_zero] at e
        rcases hd with hd | hd | hd
        · left
          rw [hd] at e
          exact Nat.eq_of_mul_eq_mul_right hb (by rw [e, Nat.one_mul])
        · right; rw [hd] at e; omega
        · left
          have : nOut ∣ 1 := by rw [← hd]; exact Dvd.intro _ e
          exact Nat.dvd_one.1 this
      · simp at h
  · rintro (rfl | rfl)
    · simp [Nat.mod_one]
    · simp [Nat.div_self hb]

/-- C73: when it is accepted with several outputs, the mask does not depend on the outputs; for the labels 0 and 1 it is zero, that is,
no pair is compared. -/
theorem C73_integer_labels_mask {α : Type*} [Field α] (nOut : ℕ) (ho : 0 < nOut) (c : α) :
    intLabelMask nOut nOut c = .ok ((1 - c) * c) ∧ (c = 0 ∨ c = 1 → (1 - c) * c = 0) := by
  refine ⟨by simp [intLabelMask, Nat.div_self ho], ?_⟩
  rintro (rfl | rfl) <;> simp

/-- C73: hence a negative score proves nothing: two samples, outputs `(0, 1)`, integer source label 0, which is never the prediction:
both scores are negative (the rows are those of a mask identically zero). -/
theorem C73_integer_labels_refuted :
    advBase (constNet ![0, 1] 0) .ibp [⟨(fun _ => 0, fun _ => 1), fun _ => 0, fun _ => 1⟩, ⟨(fun _ => 0, fun _ => 1), fun _ => 0, fun _ => 1⟩]
      = .ok [-11 / 10, -11 / 10] ∧ ¬ ((![0, 1] : Fin 2 → ℚ) 1 < (![0, 1] : Fin 2 → ℚ) 0) := by
  constructor <;> decide +kernel

/-- Cases of C73: four samples of a network with three outputs, and three samples. -/
example : ¬ (∃ v, intLabelMask 4 3 (1 : ℚ) = .ok v) ∧ intLabelMask 3 3 (1 : ℚ) = .ok 0 :=
  ⟨fun h => absurd ((C73_integer_labels_raise_partial 4 3 1 (by norm_num) (by norm_num)).mp h) (by norm_num),
    (C73_integer_labels_mask 3 (by norm_num) 1).1.trans (by norm_num)⟩

/-! ### C38: check_adv_box -/

section Check
variable {X ι κ α : Type*} [Fintype ι] [Fintype κ] [Nonempty κ] [Field α] [LinearOrder α] [IsStrictOrderedRing α]

/-- C38: what a score of `check_adv_box` says is the converse of its documentation: a *positive* score proves that some point of the
box is an adversarial example (a label that is not a source beats a source).
Missing with respect to the documentation: the meaning of a negative score, refuted below. -/
theorem C38_positive_is_adversarial_partial (net : BoxOf ι α → Full X ι κ α) (m : Mode) (F : (ι → α) → κ → α)
    (rows : List (AdvSample ι κ α)) (hb : ∀ r ∈ rows, ∀ i, r.box.1 i ≤ r.box.2 i) (hs : SoundOn net m F (rows.map AdvSample.box))
    (hz : ∀ r ∈ rows, ZeroOne r.src ∧ (∃ t, r.src t = 0) ∧ ∃ s, r.src s = 1) :
    ∃ scs, checkAdvBase net m rows = .ok scs ∧ List.Forall₂ (fun (r : AdvSample ι κ α) sc => 0 < sc →
      ∃ p ∈ Box r.box.1 r.box.2, ∃ t s, r.src t = 0 ∧ r.src s = 1 ∧ F p s < F p t) rows scs := by
  have hgood : badBoxes (rows.map AdvSample.box) = false :=
    (not_bad_iff _).2 (fun b hb' => by obtain ⟨r, hr, rfl⟩ := List.mem_map.1 hb'; exact hb r hr)
  unfold checkAdvBase
  rw [hgood]
  refine ⟨_, by simp only [Bool.false_eq_true, if_false]; rfl, ?_⟩
  have := C33_mask_exact (rows.map fun r => (checkPair m r.box (net r.box), r.src, fun k => 1 - r.src k))
  rw [List.forall₂_map_left_iff] at this
  rw [List.forall₂_iff_get] at this ⊢
  refine ⟨this.1, fun i h1 h2 hpos => ?_⟩
  obtain ⟨-, hgr⟩ := this.2 i h1 h2
  have hr : rows.get ⟨i, h1⟩ ∈ rows := List.get_mem rows _
  generalize rows.get ⟨i, h1⟩ = r at *
  obtain ⟨z, ⟨t0, ht0⟩, s0, hs0⟩ := hz r hr
  obtain ⟨⟨t, s, ht, hss, e⟩, -⟩ := hgr z (fun k => by rcases z k with h | h <;> simp [h])
    ⟨_, t0, s0, by simp [ht0], hs0, rfl⟩
  have ht' : r.src t = 0 := by simpa using ht
  have hv := hs r.box (List.mem_map.2 ⟨r, hr, rfl⟩)
  have ex := fun w c => ((C01_box_sound_and_exact r.box.1 r.box.2 w c).2 (hb r hr)).1
  rw [e] at hpos
  unfold checkPair at hpos
  cases m with
  | ibp =>
    dsimp only at hpos
    have hx : r.box.1 ∈ Box r.box.1 r.box.2 := fun i => ⟨le_rfl, hb r hr i⟩
    have v := (hv _ hx).const rfl
    simp [getUpperBox] at hpos
    exact ⟨_, hx, t, s, ht', hss, by linarith [(v t).1, (v s).2]⟩
  | affine =>
    obtain ⟨p, hp, -, e'⟩ := ex (fun i => (net r.box).wl i t - (net r.box).wu i s) ((net r.box).bl t - (net r.box).bu s)
    have v := (hv p hp).aff rfl
    have hd : affEval (fun i => (net r.box).wl i t - (net r.box).wu i s) ((net r.box).bl t - (net r.box).bu s) p =
        affEval (fun i => (net r.box).wl i t) ((net r.box).bl t) p - affEval (fun i => (net r.box).wu i s) ((net r.box).bu s) p := by
      simp only [affEval, sub_mul, Finset.sum_sub_distrib]; ring
    simp only [boxDomain] at e'
    dsimp only at hpos
    rw [← e', hd] at hpos
    exact ⟨p, hp, t, s, ht', hss, by linarith [(v t).1, (v s).2]⟩
  | hybrid =>
    obtain ⟨p, hp, -, e'⟩ := ex (fun i => (net r.box).wl i t - (net r.box).wu i s) ((net r.box).bl t - (net r.box).bu s)
    have v := (hv p hp).aff rfl
    have hd : affEval (fun i => (net r.box).wl i t - (net r.box).wu i s) ((net r.box).bl t - (net r.box).bu s) p =
        affEval (fun i => (net r.box).wl i t) ((net r.box).bl t) p - affEval (fun i => (net r.box).wu i s) ((net r.box).bu s) p := by
      simp only [affEval, sub_mul, Finset.sum_sub_distrib]; ring
    simp only [boxDomain] at e'
    dsimp only at hpos
    rw [← e', hd] at hpos
    exact ⟨p, hp, t, s, ht', hss, by linarith [(v t).1, (v s).2]⟩

end Check

/-- C38: a negative score guarantees nothing: outputs `(0, 1)`, known up to 1, source 0: the score is `-1`, although the source is never
the prediction. -/
theorem C38_negative_refuted :
    checkAdvBase (constNet ![0, 1] 1) .ibp [sample0] = .ok [-1] ∧ ¬ ((![0, 1] : Fin 2 → ℚ) 1 < (![0, 1] : Fin 2 → ℚ) 0) := by
  constructor <;> decide +kernel

/-- A case of C38: the network `(0, 1)` with source 0. -/
example : ∃ scs, checkAdvBase (constNet ![0, 1] 0) .ibp [sample0] = .ok scs ∧ List.Forall₂ (fun (r : AdvSample (Fin 1) (Fin 2) ℚ) sc => 0 < sc →
      ∃ p ∈ Box r.box.1 r.box.2, ∃ t s, r.src t = 0 ∧ r.src s = 1 ∧ ![(0 : ℚ), 1] s < ![0, 1] t) [sample0] scs :=
  C38_positive_is_adversarial_partial _ .ibp (fun _ => ![0, 1]) _ (by decide +kernel) (constNet_sound _ 0 le_rfl _) (by unfold ZeroOne; decide +kernel)

/-- Non-vacuity of C38: the same outputs known exactly: the score is `1`. -/
example : checkAdvBase (constNet ![0, 1] 0) .ibp [sample0] = .ok [1] := by decide +kernel

/-! ### C39, C40: balls -/

section Noise
variable {X ι κ : Type*} [Fintype ι] [Nonempty ι]

theorem noise_upper_eq (eps b : ℝ) (q : PVal) (x w : ι → ℝ) (hq : q = .inf ∨ q = .fin 1 ∨ q = .fin 2) :
    ∃ nrm, dualNorm q w = .ok nrm ∧ getUpperBall x eps q w b = .ok (eps * nrm + ∑ i, w i * x i + b) ∧
      getLowerBall x eps q w b = .ok (-eps * nrm + ∑ i, w i * x i + b) := by
  rcases hq with rfl | rfl | rfl
  · refine ⟨_, by simp [dualNorm]; rfl, ?_, ?_⟩
    · simp only [getUpperBall, if_true, getUpperBox, Finset.mul_sum, ← Finset.sum_add_distrib]
      congr 2
      refine Finset.sum_congr rfl fun i _ => ?_
      rcases le_total 0 (w i) with h | h
      · rw [max_eq_left h, min_eq_right h, abs_of_nonneg h]; ring
      · rw [max_eq_right h, min_eq_left h, abs_of_nonpos h]; ring
    · simp only [getLowerBall, if_true, getLowerBox, Finset.mul_sum, ← Finset.sum_add_distrib]
      congr 2
      refine Finset.sum_congr rfl fun i _ => ?_
      rcases le_total 0 (w i) with h | h
      · rw [max_eq_left h, min_eq_right h, abs_of_nonneg h]; ring
      · rw [max_eq_right h, min_eq_left h, abs_of_nonpos h]; ring
  · refine ⟨_, by simp [dualNorm]; rfl, ?_, ?_⟩ <;>
      simp [getUpperBall, getLowerBall, getLqNorm, bind, Except.bind, pure, Except.pure] <;> ring
  · refine ⟨_, by simp [dualNorm]; rfl, ?_, ?_⟩ <;>
      simp [getUpperBall, getLowerBall, getLqNorm, bind, Except.bind, pure, Except.pure] <;> ring

/-- C39: `get_range_noise` returns sound bounds on the ball, for `p = 1, 2, inf`, in every mode.
Missing with respect to the full claim: negative `eps`, refuted below. -/
theorem C39_noise_sound_partial (m : Mode) (eps : ℝ) (q : PVal) (x : ι → ℝ) (f : Full X ι κ ℝ) (F : (ι → ℝ) → κ → ℝ)
    (hq : q = .inf ∨ q = .fin 1 ∨ q = .fin 2) (hv : ∀ p ∈ LpBall x eps q, Valid m false f p (F p)) (k : κ) :
    ∃ u l, noiseUpper m eps q x f k = .ok u ∧ noiseLower m eps q x f k = .ok l ∧ ∀ p ∈ LpBall x eps q, l ≤ F p k ∧ F p k ≤ u := by
  obtain ⟨nu, h1, hu, -⟩ := noise_upper_eq eps (f.bu k) q x (fun i => f.wu i k) hq
  obtain ⟨nl, h2, -, hl⟩ := noise_upper_eq eps (f.bl k) q x (fun i => f.wl i k) hq
  simp only [noiseUpper, noiseLower, h1, h2]
  refine ⟨_, _, rfl, rfl, fun p hp => ?_⟩
  have v := hv p hp
  have bu : affEval (fun i => f.wu i k) (f.bu k) p ≤ eps * nu + ∑ i, f.wu i k * x i + f.bu k := by
    obtain ⟨u, l, e1, -, -, h⟩ := lpBall_sound x (fun i => f.wu i k) eps (f.bu k) q hp
    rw [hu] at e1; cases e1; exact h
  have bl : -eps * nl + ∑ i, f.wl i k * x i + f.bl k ≤ affEval (fun i => f.wl i k) (f.bl k) p := by
    obtain ⟨u, l, -, e2, h, -⟩ := lpBall_sound x (fun i => f.wl i k) eps (f.bl k) q hp
    rw [hl] at e2; cases e2; exact h
  cases m with
  | ibp => exact v.const rfl k
  | affine => exact ⟨bl.trans (v.aff rfl k).1, (v.aff rfl k).2.trans bu⟩
  | hybrid => exact ⟨max_le (v.const rfl k).1 (bl.trans (v.aff rfl k).1), le_min (v.const rfl k).2 ((v.aff rfl k).2.trans bu)⟩

/-- C39: any other `p` raises `ValueError`. -/
theorem C39_other_p_raises (m : Mode) (eps : ℝ) (q : PVal) (x : ι → ℝ) (f : Full X ι κ ℝ) (k : κ)
    (hq : q ≠ .inf ∧ q ≠ .fin 1 ∧ q ≠ .fin 2) : noiseUpper m eps q x f k = .error .valueError := by
  simp [noiseUpper, dualNorm, hq.1, hq.2.1, hq.2.2]

/-- C39: a model converted for a box is refused (`set_domain` cannot change the type of the domain). -/
theorem C39_box_model_raises : setDomainKind false true = .error .notImplemented := rfl

/-- C39: with a negative `eps` (documented nowhere; the domain is built with `max(0, eps)`), the value at the centre is not enclosed:
identity network, exact bounds, any centre. -/
theorem C39_negative_eps_refuted (eps z : ℝ) (he : eps < 0) :
    ∃ f : Full Unit (Fin 1) (Fin 1) ℝ, (∀ p, Valid .affine false f p p) ∧
      ∃ u, noiseUpper .affine eps .inf (fun _ => z) f 0 = .ok u ∧ u < z := by
  refine ⟨⟨(), fun _ => 0, fun _ _ => 1, fun _ => 0, fun _ => 0, fun _ _ => 1, fun _ => 0, fun _ => 0, fun _ => 0⟩, fun p => ?_, ?_⟩
  · refine ⟨by simp [getIbp], fun _ k => ?_, by simp⟩
    rw [Subsingleton.elim k 0]
    simp [affEval]
  · refine ⟨_, by simp [noiseUpper, dualNorm]; rfl, ?_⟩
    simp
    exact he

/-- C39: end to end, for a Keras model (converted by `crown-forward-hybrid`), any chain of layers.  Missing: slivers. -/
theorem C39_keras_model_partial {ι κ : Type} [Fintype ι] [DecidableEq ι] [Nonempty ι] (leps : ℝ) (he : 0 < leps) (slope : Slope)
    (stack : (ι → ℝ) → (ι → ℝ) → ι → ℝ) (eps : ℝ) (q : PVal) (hq : q = .inf ∨ q = .fin 1 ∨ q = .fin 2) (z : ι → ℝ) (n : Net ℝ ι κ)
    (hc : n.Chain) (hn : n.WF) (hne : (LpBall z eps q).Nonempty)
    (hs : (⟨ballDomain eps q, stack, .hybrid, leps, slope, true, inputTensorsBall .hybrid eps q z⟩ : CrownCfg (ι → ℝ) ι ℝ).SliverOK n)
    (k : κ) :
    ∃ out u l, (⟨ballDomain eps q, stack, .hybrid, leps, slope, true, inputTensorsBall .hybrid eps q z⟩ : CrownCfg (ι → ℝ) ι ℝ).model n
        = .ok out ∧ noiseUpper .hybrid eps q z out k = .ok u ∧ noiseLower .hybrid eps q z out k = .ok l ∧
      ∀ p ∈ LpBall z eps q, l ≤ n.eval p k ∧ n.eval p k ≤ u := by
  have key := C67_ball_affine_partial .hybrid (by simp) leps he slope true stack eps q z n hc hn hs
  obtain ⟨p0, hp0⟩ := hne
  obtain ⟨out, e, -⟩ := key p0 hp0
  have hv : ∀ p ∈ LpBall z eps q, Valid .hybrid false out p (n.eval p) := by
    intro p hp
    obtain ⟨out', e', v⟩ := key p hp
    rw [e] at e'; cases e'; exact v
  obtain ⟨u, l, h1, h2, h3⟩ := C39_noise_sound_partial .hybrid eps q z out (fun p => n.eval p) hq hv k
  exact ⟨out, u, l, e, h1, h2, h3⟩

/-- C40: `get_adv_noise` works in ibp mode only, where a score bounds the margin of every (target, source) pair.
Missing with respect to the full claim: the other modes and Keras models, which raise. -/
theorem C40_ibp_sound_partial [Fintype κ] [Nonempty κ] (rows : List (Full X ι κ ℝ × (κ → ℝ) × (κ → ℝ))) :
    ∃ scs, advNoise true .ibp rows = .ok scs ∧ List.Forall₂ (fun r sc => ∀ p y, Valid .ibp false r.1 p y →
      ∀ t s, r.2.2 t = 1 → r.2.1 s = 1 → y t - y s ≤ sc) rows scs := by
  refine ⟨_, rfl, ?_⟩
  have := C33_mask_exact (rows.map fun r => (ibpPair r.1, r.2.1, r.2.2))
  rw [List.forall₂_map_left_iff] at this
  refine this.imp fun r sc h p y v t s ht hs => ?_
  exact (ibpPair_sound r.1 .ibp rfl p y v t s).trans (h.1 _ ⟨t, s, ht, hs, rfl⟩)

/-- C40: in affine and hybrid mode it raises `NotImplementedError` whatever the arguments; on a Keras model, `AttributeError`. -/
theorem C40_raises_refuted [Fintype κ] [Nonempty κ] (m : Mode) (rows : List (Full X ι κ ℝ × (κ → ℝ) × (κ → ℝ))) :
    (m ≠ .ibp → advNoise true m rows = .error .notImplemented) ∧ advNoise false m rows = .error .attributeError := by
  cases m <;> simp [advNoise]

/-- Cases of C39 and C40: affine bounds `x ≤ y ≤ x` on a ball, a norm that is not handled, and a converted network. -/
example (q : PVal) (hq : q = .inf ∨ q = .fin 1 ∨ q = .fin 2) : ∃ u l,
    noiseUpper .affine 2 q (fun _ => 1) (⟨(), fun _ => 0, fun _ _ => 1, fun _ => 0, fun _ => 0, fun _ _ => 1, fun _ => 0, fun _ => 0, fun _ => 0⟩ :
      Full Unit (Fin 1) (Fin 1) ℝ) 0 = .ok u ∧
    noiseLower .affine 2 q (fun _ => 1) (⟨(), fun _ => 0, fun _ _ => 1, fun _ => 0, fun _ => 0, fun _ _ => 1, fun _ => 0, fun _ => 0, fun _ => 0⟩ :
      Full Unit (Fin 1) (Fin 1) ℝ) 0 = .ok l ∧ ∀ p : Fin 1 → ℝ, p ∈ LpBall (fun _ => 1) 2 q → l ≤ p 0 ∧ p 0 ≤ u :=
  C39_noise_sound_partial .affine 2 q _ _ (fun p : Fin 1 → ℝ => p) hq (fun p _ => ⟨by simp [getIbp], fun _ k => by rw [Subsingleton.elim k 0]; simp [affEval], by simp⟩) 0

example (f : Full Unit (Fin 2) (Fin 2) ℝ) : noiseUpper .hybrid 2 (.fin 3) ![1, 0] f 1 = .error .valueError :=
  C39_other_p_raises .hybrid 2 (.fin 3) _ f 1 (by simp)

example (stack : (Fin 2 → ℝ) → (Fin 2 → ℝ) → Fin 2 → ℝ) : ∃ out u l,
    (⟨ballDomain 2 (.fin 2), stack, .hybrid, 1 / 10000000, .vSlope, true, inputTensorsBall .hybrid 2 (.fin 2) ![1, 1]⟩ : CrownCfg (Fin 2 → ℝ) (Fin 2) ℝ).model
      (.layer .input (.dense (fun i (_ : Fin 1) => ![3, -1] i) fun _ => 0)) = .ok out ∧
    noiseUpper .hybrid 2 (.fin 2) ![1, 1] out 0 = .ok u ∧ noiseLower .hybrid 2 (.fin 2) ![1, 1] out 0 = .ok l ∧
      ∀ p ∈ LpBall ![1, 1] 2 (.fin 2), l ≤ (∑ i, ![3, -1] i * p i) + 0 ∧ (∑ i, ![3, -1] i * p i) + 0 ≤ u :=
  C39_keras_model_partial (1 / 10000000) (by norm_num) .vSlope stack 2 (.fin 2) (by simp) _ (.layer .input (.dense (fun i (_ : Fin 1) => ![3, -1] i) fun _ => 0))
    (by exact trivial) (by simp [Net.WF, Lay.WF]) ⟨![1, 1], .inr (.inr ⟨rfl, by norm_num, by simp⟩)⟩ (by exact ⟨trivial, fun _ _ => trivial, fun _ => trivial⟩) 0

example : ∃ scs, advNoise true .ibp [((⟨(), ![3, 1], fun _ _ => 0, fun _ => 0, ![2, 0], fun _ _ => 0, fun _ => 0, fun _ => 0, fun _ => 0⟩ :
      Full Unit (Fin 1) (Fin 2) ℝ), ![1, 0], ![0, 1])] = .ok scs := by
  obtain ⟨scs, h, _⟩ := C40_ibp_sound_partial (ι := Fin 1) [((⟨(), ![3, 1], fun _ _ => 0, fun _ => 0, ![2, 0], fun _ _ => 0, fun _ => 0, fun _ => 0,
    fun _ => 0⟩ : Full Unit (Fin 1) (Fin 2) ℝ), ![1, 0], ![0, 1])]
  exact ⟨scs, h⟩

end Noise

/-! ### C46: tuning -/

section Tuning
variable {α : Type*} [LinearOrder α]

/-- C46: `get_upper_box_tuning` (one batch, no sub-boxes): sound and never looser than the baseline, whatever the optimiser does to the
finetuning parameters.  `after` is a bound of the original model as long as `fit` leaves the other weights as they are (see C49). -/
theorem C46_upper_tuning (y baseline after : α) (h1 : y ≤ baseline) (h2 : y ≤ after) :
    y ≤ upperTuning baseline after ∧ upperTuning baseline after ≤ baseline :=
  ⟨le_min h1 h2, min_le_left _ _⟩

/-- C46: `get_lower_box_tuning` is sound. -/
theorem C46_lower_tuning_partial (y baseline after : α) (h1 : baseline ≤ y) : lowerTuning baseline after ≤ y :=
  (min_le_left _ _).trans h1

example : (1 : ℚ) ≤ upperTuning 3 2 ∧ lowerTuning (-3 : ℚ) (-2) ≤ 1 := ⟨(C46_upper_tuning 1 3 2 (by norm_num) (by norm_num)).1, C46_lower_tuning_partial 1 _ _ (by norm_num)⟩

/-- C46: but it can only lose: the result is at most the baseline, strictly below it whenever the tuned bound is, and an improved bound
is thrown away. -/
theorem C46_lower_tuning_refuted (baseline after : α) :
    lowerTuning baseline after ≤ baseline ∧ (after < baseline → lowerTuning baseline after < baseline) ∧
      (baseline < after → lowerTuning baseline after < after) :=
  ⟨min_le_left _ _, fun h => (min_le_right _ _).trans_lt h, fun h => (min_le_left _ _).trans_lt h⟩

/-- C46: with sub-boxes (`nSplit ≥ 2`) the number of returned values is never the number of boxes: one value per sub-box is returned in
batches of two or more, and for a single box; otherwise `ValueError` is raised. -/
theorem C46_sub_boxes_refuted (batch nx nSplit : ℕ) (hx : 0 < nx) (hs : 2 ≤ nSplit) : upperTuningCount batch nx nSplit ≠ .ok nx ∧
    upperTuningCount batch nx nSplit = if 2 ≤ batch ∨ nx = 1 then .ok (nx * nSplit) else .error .valueError := by
  have h1 : nx * nSplit ≠ nx := by
    intro e
    have : nx * nSplit = nx * 1 := by omega
    have := Nat.eq_of_mul_eq_mul_left hx this
    omega
  have h2 : nx * nSplit ≠ 1 := by
    intro e
    have := Nat.le_mul_of_pos_left nSplit hx
    omega
  have h3 : upperTuningCount batch nx nSplit = if 2 ≤ batch ∨ nx = 1 then .ok (nx * nSplit) else .error .valueError := by
    unfold upperTuningCount
    by_cases hb : 1 < batch
    · rw [if_pos hb, if_pos (.inl hb)]
    · rw [if_neg hb]
      by_cases hn : nx = 1
      · rw [if_pos (.inr (.inl hn)), if_pos (.inr hn)]
      · rw [if_neg (by tauto), if_neg (by omega)]
  refine ⟨?_, h3⟩
  rw [h3]
  split_ifs <;> simp [h1]

example : (-1 : ℚ) ≤ upperTuning 3 2 ∧ lowerTuning (-3 : ℚ) (-2) = -3 := by constructor <;> decide +kernel

end Tuning

end Decomon
