import Verif.Model.Grid
import Verif.Spec
import Verif.Lemmas.Core
import Mathlib.Tactic.Linarith
import Mathlib.Tactic.FieldSimp
import Mathlib.Tactic.Ring

/-! Helper lemmas for the grid search. -/

namespace Decomon

section
variable {α : Type*} [Field α] [LinearOrder α] [IsStrictOrderedRing α]

/-- The sums of at most `n` copies of each entry. -/
def Reach (n : ℕ) : List α → α → Prop
  | [], s => s = 0
  | w :: ws, s => ∃ j ≤ n, ∃ t, Reach n ws t ∧ s = j * w + t

theorem reach_perm (n : ℕ) {l l' : List α} (h : l.Perm l') : ∀ s, Reach n l s → Reach n l' s := by
  induction h with
  | nil => exact fun _ h => h
  | cons x _ ih =>
    rintro s ⟨j, hj, t, ht, rfl⟩
    exact ⟨j, hj, t, ih t ht, rfl⟩
  | swap x y l =>
    rintro s ⟨j, hj, t, ⟨i, hi, u, hu, rfl⟩, rfl⟩
    exact ⟨i, hi, _, ⟨j, hj, u, hu, rfl⟩, by ring⟩
  | trans _ _ ih1 ih2 => exact fun s h => ih2 s (ih1 s h)

theorem reach_zero (n : ℕ) : ∀ l : List α, Reach n l 0
  | [] => rfl
  | _ :: l => ⟨0, Nat.zero_le _, 0, reach_zero n l, by simp⟩

theorem reach_ofFn (n : ℕ) : ∀ {d : ℕ} (w : Fin d → α) (s : α),
    Reach n (List.ofFn w) s ↔ ∃ j : Fin d → ℕ, (∀ i, j i ≤ n) ∧ s = ∑ i, j i * w i
  | 0, w, s => by simp [Reach]
  | d + 1, w, s => by
    rw [List.ofFn_succ]
    constructor
    · rintro ⟨j, hj, t, ht, rfl⟩
      obtain ⟨k, hk, rfl⟩ := (reach_ofFn n _ t).mp ht
      exact ⟨Fin.cons j k, fun i => by refine Fin.cases ?_ ?_ i <;> simp [hj, hk], by simp [Fin.sum_univ_succ]⟩
    · rintro ⟨j, hj, rfl⟩
      exact ⟨j 0, hj 0, _, (reach_ofFn n _ _).mpr ⟨fun i => j i.succ, fun i => hj _, rfl⟩, by rw [Fin.sum_univ_succ]⟩

theorem reach_take (n : ℕ) : ∀ (l : List α) (k : ℕ), Reach n l ((l.flatMap (List.replicate n)).take k).sum
  | [], k => by simp [Reach]
  | w :: l, k => by
    rw [List.flatMap_cons, List.take_append, List.sum_append, List.length_replicate, List.take_replicate, List.sum_replicate]
    exact ⟨min k n, min_le_right _ _, _, reach_take n l (k - n), by rw [nsmul_eq_mul]⟩

/-- The masked sum of `subset_sum_lower` started at `acc`. -/
def maskSum (B acc : α) (l : List α) : α :=
  (List.zipWith (· * ·) ((cumsumFrom acc l).map fun c => min (ksign (B - c) + 1) 1) l).sum

omit [IsStrictOrderedRing α] in
theorem maskSum_nil (B acc : α) : maskSum B acc [] = 0 := rfl

theorem mask_val (B c : α) : min (ksign (B - c) + 1) 1 = if c ≤ B then 1 else 0 := by
  unfold ksign
  rcases lt_trichotomy B c with h | h | h
  · rw [if_pos (by linarith), if_neg (by linarith)]; norm_num
  · subst h; simp
  · rw [if_neg (by linarith), if_neg (by linarith), if_pos h.le]; norm_num

theorem maskSum_cons (B acc c : α) (l : List α) :
    maskSum B acc (c :: l) = (if acc + c ≤ B then c else 0) + maskSum B (acc + c) l := by
  have : min (ksign (B - (acc + c)) + 1) 1 * c = if acc + c ≤ B then c else 0 := by
    rw [mask_val]; split <;> simp
  rw [← this]
  rfl

theorem maskSum_zero (B : α) : ∀ (l : List α) (acc : α), (∀ c ∈ l, 0 ≤ c) → B < acc → maskSum B acc l = 0
  | [], _, _, _ => rfl
  | c :: l, acc, h, hb => by
    have hc := h c (by simp)
    rw [maskSum_cons, if_neg (by linarith), maskSum_zero B l _ (fun x hx => h x (by simp [hx])) (by linarith), add_zero]

/-- The masked sum is the sum of the longest prefix that stays below `B`. -/
theorem maskSum_prefix (B : α) : ∀ (l : List α) (acc : α), (∀ c ∈ l, 0 ≤ c) → acc ≤ B →
    ∃ k ≤ l.length, maskSum B acc l = (l.take k).sum ∧ acc + maskSum B acc l ≤ B ∧
      (k = l.length ∨ ∃ h : k < l.length, B < acc + maskSum B acc l + l[k])
  | [], acc, _, hb => ⟨0, le_rfl, by simp [maskSum_nil], by simpa [maskSum_nil] using hb, Or.inl rfl⟩
  | c :: l, acc, h, hb => by
    rw [maskSum_cons]
    by_cases hc : acc + c ≤ B
    · obtain ⟨k, hk, h1, h2, h3⟩ := maskSum_prefix B l (acc + c) (fun x hx => h x (by simp [hx])) hc
      rw [if_pos hc]
      refine ⟨k + 1, by simpa using hk, by simp [h1], by linarith, ?_⟩
      rcases h3 with h3 | ⟨h3, h4⟩
      · left; simp [h3]
      · right; exact ⟨by simpa using h3, by simp only [List.getElem_cons_succ]; linarith⟩
    · rw [if_neg hc, maskSum_zero B l _ (fun x hx => h x (by simp [hx])) (not_le.mp hc)]
      exact ⟨0, by simp, by simp, by simpa using hb, Or.inr ⟨by simp, by simp only [List.getElem_cons_zero]; linarith [not_le.mp hc]⟩⟩

/-- What `subset_sum_lower` computes when `b ≤ 0` and the weights are nonnegative. -/
theorem subsetSumLower_spec (W : List α) (b : α) (n : ℕ) (hW : ∀ w ∈ W, 0 ≤ w) (hb : b ≤ 0) :
    ∃ k ≤ ((W.insertionSort (· ≤ ·)).flatMap (List.replicate n)).length,
      subsetSumLower W b n = (((W.insertionSort (· ≤ ·)).flatMap (List.replicate n)).take k).sum + b ∧
      subsetSumLower W b n ≤ 0 ∧
      (k = ((W.insertionSort (· ≤ ·)).flatMap (List.replicate n)).length ∨ ∃ w ∈ W, 0 < subsetSumLower W b n + w) := by
  set C := (W.insertionSort (· ≤ ·)).flatMap (List.replicate n) with hC
  have memC : ∀ c ∈ C, c ∈ W := by
    intro c hc
    rw [hC, List.mem_flatMap] at hc
    obtain ⟨w, hw, hc⟩ := hc
    rw [List.eq_of_mem_replicate hc]
    exact (List.mem_insertionSort _).mp hw
  obtain ⟨k, hk, h1, h2, h3⟩ := maskSum_prefix (-b) C 0 (fun c hc => hW c (memC c hc)) (by linarith)
  have e : subsetSumLower W b n = maskSum (-b) 0 C + b := by
    unfold subsetSumLower
    exact min_eq_left (by change maskSum (-b) 0 C + b ≤ 0; linarith)
  refine ⟨k, hk, by rw [e, h1], by rw [e]; linarith, ?_⟩
  rcases h3 with h3 | ⟨h3, h4⟩
  · exact Or.inl h3
  · exact Or.inr ⟨_, memC _ (List.getElem_mem h3), by rw [e]; linarith⟩

theorem subsetSumLower_pos (W : List α) (b : α) (n : ℕ) (hW : ∀ w ∈ W, 0 ≤ w) (hb : 0 < b) : subsetSumLower W b n = 0 := by
  have e : maskSum (-b) 0 ((W.insertionSort (· ≤ ·)).flatMap (List.replicate n)) = 0 := by
    refine maskSum_zero _ _ _ (fun c hc => ?_) (by linarith)
    rw [List.mem_flatMap] at hc
    obtain ⟨w, hw, hc⟩ := hc
    rw [List.eq_of_mem_replicate hc]
    exact hW _ ((List.mem_insertionSort _).mp hw)
  unfold subsetSumLower
  change min (maskSum (-b) 0 _ + b) 0 = 0
  rw [e, zero_add, min_eq_right hb.le]

theorem subsetSumLower_le (W : List α) (b : α) (n : ℕ) : subsetSumLower W b n ≤ 0 := min_le_right _ _

/-- The sum of all the entries of the repeated list is `n` times the sum of the list. -/
theorem flatMap_replicate_sum (n : ℕ) : ∀ l : List α, (l.flatMap (List.replicate n)).sum = n * l.sum
  | [] => by simp
  | w :: l => by
    rw [List.flatMap_cons, List.sum_append, flatMap_replicate_sum n l, List.sum_replicate, List.sum_cons, nsmul_eq_mul]; ring

theorem flatMap_replicate_const (n : ℕ) (c : α) : ∀ l : List α, (∀ w ∈ l, w = c) →
    l.flatMap (List.replicate n) = List.replicate (l.length * n) c
  | [], _ => by simp
  | w :: l, h => by
    rw [List.flatMap_cons, flatMap_replicate_const n c l (fun w hw => h w (by simp [hw])), h w (by simp), List.length_cons,
      Nat.succ_mul, add_comm (l.length * n), List.replicate_add]

end

end Decomon
