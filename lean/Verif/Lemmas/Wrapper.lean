import Verif.Model.Wrapper
import Verif.Lemmas.Core
import Mathlib.Tactic.Linarith
import Mathlib.Data.Nat.Log
import Mathlib.Tactic.Ring
import Mathlib.Tactic.FieldSimp

/-! Lemmas on the wrapper functions. -/

namespace Decomon

/-! ### Arrays -/

section Arrays
variable {τ : Type*}

theorem flatten_slices (bs : ℕ) (xs : List τ) (k : ℕ) :
    ((List.range k).map fun i => pySlice (bs * i) (bs * (i + 1)) xs).flatten = xs.take (bs * k) := by
  induction k with
  | zero => simp
  | succ k ih =>
    rw [List.range_succ, List.map_append, List.flatten_append, ih]
    simp only [List.map_cons, List.map_nil, List.flatten_cons, List.flatten_nil, List.append_nil, pySlice]
    have h : bs * k ≤ bs * (k + 1) := Nat.mul_le_mul_left _ (Nat.le_succ _)
    conv_rhs => rw [← List.take_append_drop (bs * k) (xs.take (bs * (k + 1)))]
    rw [List.take_take, Nat.min_eq_left h]

theorem batches_flatten (bs : ℕ) (hb : 0 < bs) (xs : List τ) : (batches bs xs).flatten = xs := by
  unfold batches
  rw [flatten_slices]
  apply List.take_of_length_le
  have hd := Nat.div_add_mod xs.length bs
  have hm := Nat.mod_lt xs.length hb
  split
  · rw [Nat.mul_add]; omega
  · rw [Nat.add_zero]; omega

theorem batches_mem_ne_nil (bs : ℕ) (hb : 0 < bs) (xs c : List τ) (hc : c ∈ batches bs xs) : c ≠ [] ∧ c.length ≤ bs := by
  unfold batches at hc
  obtain ⟨i, hi, rfl⟩ := List.mem_map.1 hc
  rw [List.mem_range] at hi
  have hd := Nat.div_add_mod xs.length bs
  have hlt : bs * i < xs.length := by
    split at hi
    · have : bs * i ≤ bs * (xs.length / bs) := Nat.mul_le_mul_left _ (by omega)
      omega
    · have : bs * (i + 1) ≤ bs * (xs.length / bs) := Nat.mul_le_mul_left _ (by omega)
      rw [Nat.mul_add] at this
      omega
  have e : bs * (i + 1) = bs * i + bs := by ring
  constructor
  · intro h
    have := congrArg List.length h
    simp only [pySlice, List.length_drop, List.length_take, List.length_nil] at this
    omega
  · simp only [pySlice, List.length_drop, List.length_take]
    omega

theorem regroup_length (k : ℕ) (l : List τ) : (regroup k l).length = l.length / k := by simp [regroup]

/-- The groups of a concatenation of lists of length `k` are these lists. -/
theorem regroup_flatten (k : ℕ) (hk : 0 < k) (ls : List (List τ)) (h : ∀ l ∈ ls, l.length = k) : regroup k ls.flatten = ls := by
  have hlen : ls.flatten.length = k * ls.length := by
    induction ls with
    | nil => simp
    | cons a t ih =>
      simp only [List.flatten_cons, List.length_append, List.length_cons]
      rw [h a (by simp), ih fun l hl => h l (by simp [hl])]; ring
  apply List.ext_getElem
  · rw [regroup_length, hlen, Nat.mul_div_cancel_left _ hk]
  · intro i h1 h2
    simp only [regroup, List.getElem_map, List.getElem_range]
    clear h1 hlen
    induction ls generalizing i with
    | nil => simp at h2
    | cons a t ih =>
      have ha := h a (by simp)
      cases i with
      | zero =>
        simp only [pySlice, List.flatten_cons, List.getElem_cons_zero]
        rw [← ha]; simp
      | succ i =>
        have := ih (fun l hl => h l (by simp [hl])) i (by simpa using h2)
        simp only [List.getElem_cons_succ]
        rw [← this]
        simp only [pySlice, List.flatten_cons]
        have e1 : k * (i + 1 + 1) = a.length + k * (i + 1) := by rw [ha]; ring
        have e2 : k * (i + 1) = a.length + k * i := by rw [ha]; ring
        rw [e1, List.take_append, List.take_of_length_le (by omega)]
        rw [Nat.add_sub_cancel_left]
        conv_lhs => rw [e2]
        rw [List.drop_append, List.drop_of_length_le (by omega)]
        simp [e2]

variable {α : Type*} [Zero α] [LinearOrder α]

omit [Zero α] in
theorem foldl_max_le (l : List α) (a b : α) : l.foldl max a ≤ b ↔ a ≤ b ∧ ∀ x ∈ l, x ≤ b := by
  induction l generalizing a with
  | nil => simp
  | cons c l ih => simp only [List.foldl_cons, ih, max_le_iff, List.forall_mem_cons]; tauto

omit [Zero α] in
theorem le_foldl_min (l : List α) (a b : α) : b ≤ l.foldl min a ↔ b ≤ a ∧ ∀ x ∈ l, b ≤ x := by
  induction l generalizing a with
  | nil => simp
  | cons c l ih => simp only [List.foldl_cons, ih, le_min_iff, List.forall_mem_cons]; tauto

theorem le_listMax {l : List α} {a : α} (h : a ∈ l) : a ≤ listMax l := by
  cases l with
  | nil => simp at h
  | cons b t =>
    have := (foldl_max_le t b (listMax (b :: t))).1 le_rfl
    rcases List.mem_cons.1 h with rfl | h
    · exact this.1
    · exact this.2 a h

theorem listMin_le {l : List α} {a : α} (h : a ∈ l) : listMin l ≤ a := by
  cases l with
  | nil => simp at h
  | cons b t =>
    have := (le_foldl_min t b (listMin (b :: t))).1 le_rfl
    rcases List.mem_cons.1 h with rfl | h
    · exact this.1
    · exact this.2 a h

theorem listMax_le {l : List α} (hl : l ≠ []) {b : α} (h : ∀ a ∈ l, a ≤ b) : listMax l ≤ b := by
  cases l with
  | nil => exact absurd rfl hl
  | cons c t => exact (foldl_max_le t c b).2 ⟨h c (by simp), fun x hx => h x (by simp [hx])⟩

theorem le_listMin {l : List α} (hl : l ≠ []) {b : α} (h : ∀ a ∈ l, b ≤ a) : b ≤ listMin l := by
  cases l with
  | nil => exact absurd rfl hl
  | cons c t => exact (le_foldl_min t c b).2 ⟨h c (by simp), fun x hx => h x (by simp [hx])⟩

theorem listMax_mem {l : List α} (hl : l ≠ []) : listMax l ∈ l := by
  cases l with
  | nil => exact absurd rfl hl
  | cons b t =>
    show t.foldl max b ∈ b :: t
    clear hl
    induction t generalizing b with
    | nil => simp
    | cons c t ih =>
      have := ih (max b c)
      rcases List.mem_cons.1 this with h | h
      · simp only [List.foldl_cons]
        rw [h]
        rcases max_choice b c with e | e <;> rw [e] <;> simp
      · simp only [List.foldl_cons]
        exact List.mem_cons_of_mem _ (List.mem_cons_of_mem _ h)

theorem collect_ok {σ : Type*} (g : σ → Except PyErr τ) (f : σ → τ) (l : List σ) (h : ∀ a ∈ l, g a = .ok (f a)) :
    collect (l.map g) = .ok (l.map f) := by
  induction l with
  | nil => rfl
  | cons a l ih =>
    simp only [List.map_cons, collect, h a (by simp)]
    rw [ih fun b hb => h b (by simp [hb])]

theorem le_argmax {n : ℕ} (v : Fin (n + 1) → α) (i : Fin (n + 1)) : v i ≤ v (argmax v) := by
  have key : ∀ (l : List (Fin (n + 1))) (b : Fin (n + 1)),
      v b ≤ v (l.foldl (fun best i => if v best < v i then i else best) b) ∧
      ∀ j ∈ l, v j ≤ v (l.foldl (fun best i => if v best < v i then i else best) b) := by
    intro l
    induction l with
    | nil => intro b; simp
    | cons a l ih =>
      intro b
      simp only [List.foldl_cons]
      obtain ⟨h1, h2⟩ := ih (if v b < v a then a else b)
      have hb : v b ≤ v (if v b < v a then a else b) := by split <;> [exact le_of_lt ‹_›; exact le_rfl]
      have ha : v a ≤ v (if v b < v a then a else b) := by split <;> [exact le_rfl; exact not_lt.1 ‹_›]
      exact ⟨hb.trans h1, List.forall_mem_cons.2 ⟨ha.trans h1, h2⟩⟩
  exact (key _ 0).2 i (List.mem_finRange i)

end Arrays

/-! ### Boxes -/

section Boxes
variable {ι α : Type*} [Field α] [LinearOrder α] [IsStrictOrderedRing α]

theorem mem_half [DecidableEq ι] [Fintype ι] (b : BoxOf ι α) (j : ι) (p : ι → α) (hp : p ∈ Box b.1 b.2) :
    p ∈ Box (lowHalf b j).1 (lowHalf b j).2 ∨ p ∈ Box (highHalf b j).1 (highHalf b j).2 := by
  rcases le_total (p j) ((b.1 j + b.2 j) / 2) with h | h
  · left
    intro i
    refine ⟨(hp i).1, ?_⟩
    by_cases e : i = j
    · subst e; simpa [lowHalf] using h
    · simpa [lowHalf, e] using (hp i).2
  · right
    intro i
    refine ⟨?_, (hp i).2⟩
    by_cases e : i = j
    · subst e; simpa [highHalf] using h
    · simpa [highHalf, e] using (hp i).1

/-- No negative width. -/
def GoodBox (b : BoxOf ι α) : Prop := ∀ i, b.1 i ≤ b.2 i

/-- `c` lies in `b`. -/
def SubBox (c b : BoxOf ι α) : Prop := ∀ i, b.1 i ≤ c.1 i ∧ c.2 i ≤ b.2 i

theorem good_low [DecidableEq ι] (b : BoxOf ι α) (j : ι) (h : GoodBox b) : GoodBox (lowHalf b j) ∧ SubBox (lowHalf b j) b := by
  have hj := h j
  refine ⟨fun i => ?_, fun i => ⟨le_rfl, ?_⟩⟩ <;> by_cases e : i = j
  · subst e; simp only [lowHalf, Function.update_self]; linarith
  · simpa [lowHalf, e] using h i
  · subst e; simp only [lowHalf, Function.update_self]; linarith
  · simp [lowHalf, e]

theorem good_high [DecidableEq ι] (b : BoxOf ι α) (j : ι) (h : GoodBox b) : GoodBox (highHalf b j) ∧ SubBox (highHalf b j) b := by
  have hj := h j
  refine ⟨fun i => ?_, fun i => ⟨?_, le_rfl⟩⟩ <;> by_cases e : i = j
  · subst e; simp only [highHalf, Function.update_self]; linarith
  · simpa [highHalf, e] using h i
  · subst e; simp only [highHalf, Function.update_self]; linarith
  · simp [highHalf, e]

theorem SubBox.trans {a b c : BoxOf ι α} (h1 : SubBox a b) (h2 : SubBox b c) : SubBox a c :=
  fun i => ⟨(h2 i).1.trans (h1 i).1, (h1 i).2.trans (h2 i).2⟩

theorem SubBox.refl (b : BoxOf ι α) : SubBox b b := fun _ => ⟨le_rfl, le_rfl⟩

theorem not_bad_iff [Fintype ι] (bs : List (BoxOf ι α)) : badBoxes bs = false ↔ ∀ b ∈ bs, GoodBox b := by
  simp only [badBoxes, List.any_eq_false, decide_eq_true_eq, not_exists, not_lt, GoodBox]
  simp only [boxWidth, sub_nonneg]

/-- What a splitting procedure must satisfy: the boxes of `bs` are in `b`, are not empty, and cover `b`. -/
structure Covers [Fintype ι] (bs : List (BoxOf ι α)) (b : BoxOf ι α) : Prop where
  good : GoodBox b → ∀ c ∈ bs, GoodBox c ∧ SubBox c b
  cover : ∀ p ∈ Box b.1 b.2, ∃ c ∈ bs, p ∈ Box c.1 c.2

theorem Covers.self [Fintype ι] (b : BoxOf ι α) : Covers [b] b :=
  ⟨fun h c hc => by rw [List.mem_singleton.1 hc]; exact ⟨h, SubBox.refl b⟩, fun p hp => ⟨b, by simp, hp⟩⟩

variable {n : ℕ}

theorem covers_split (bs : List (BoxOf (Fin (n + 1)) α)) (b : BoxOf (Fin (n + 1)) α) (h : Covers bs b) : Covers (splitBoxes bs) b := by
  constructor
  · intro hb c hc
    simp only [splitBoxes, List.mem_append, List.mem_map] at hc
    rcases hc with ⟨a, ha, rfl⟩ | ⟨a, ha, rfl⟩
    · have := good_low a (argmax (boxWidth a)) (h.good hb a ha).1
      exact ⟨this.1, this.2.trans (h.good hb a ha).2⟩
    · have := good_high a (argmax (boxWidth a)) (h.good hb a ha).1
      exact ⟨this.1, this.2.trans (h.good hb a ha).2⟩
  · intro p hp
    obtain ⟨c, hc, hpc⟩ := h.cover p hp
    rcases mem_half c (argmax (boxWidth c)) p hpc with h1 | h1
    · exact ⟨_, List.mem_append_left _ (List.mem_map.2 ⟨c, hc, rfl⟩), h1⟩
    · exact ⟨_, List.mem_append_right _ (List.mem_map.2 ⟨c, hc, rfl⟩), h1⟩

theorem covers_loop (fuel nSub : ℕ) (bs : List (BoxOf (Fin (n + 1)) α)) (b : BoxOf (Fin (n + 1)) α) (h : Covers bs b) :
    Covers (refineLoop fuel nSub bs) b := by
  induction fuel generalizing bs with
  | zero => exact h
  | succ f ih =>
    simp only [refineLoop]
    split
    · exact ih _ (covers_split bs b h)
    · exact h

theorem covers_refine (nSub : ℕ) (b : BoxOf (Fin (n + 1)) α) : Covers (refineBoxes true nSub b) b :=
  covers_loop _ _ _ _ (by simpa using Covers.self b)

omit [IsStrictOrderedRing α] in
theorem splitBoxes_length (bs : List (BoxOf (Fin (n + 1)) α)) : (splitBoxes bs).length = 2 * bs.length := by
  simp [splitBoxes]; ring

omit [IsStrictOrderedRing α] in
/-- The loop stops by itself, on a number of boxes that only depends on the initial number. -/
theorem refineLoop_length (fuel nSub : ℕ) (bs : List (BoxOf (Fin (n + 1)) α)) (hf : nSub ≤ fuel + bs.length) (h0 : 0 < bs.length) :
    ∃ k, (refineLoop fuel nSub bs).length = 2 ^ k * bs.length ∧ (bs.length ≤ nSub → 2 ^ k * bs.length ≤ nSub) ∧
      nSub < 2 * (2 ^ k * bs.length) := by
  induction fuel generalizing bs with
  | zero => exact ⟨0, by simp [refineLoop], by simp, by simp; omega⟩
  | succ f ih =>
    simp only [refineLoop]
    split
    · rename_i hle
      have hl := splitBoxes_length bs
      obtain ⟨k, h1, h2, h3⟩ := ih (splitBoxes bs) (by omega) (by omega)
      have e : 2 ^ k * (splitBoxes bs).length = 2 ^ (k + 1) * bs.length := by rw [hl, pow_succ]; ring
      rw [e] at h1 h2 h3
      exact ⟨k + 1, h1, fun _ => h2 (by omega), h3⟩
    · exact ⟨0, by simp, by simp, by simp; omega⟩

omit [IsStrictOrderedRing α] in
theorem refineBoxes_length (flat : Bool) (nSub : ℕ) (hn : 0 < nSub) (b : BoxOf (Fin (n + 1)) α) :
    (refineBoxes flat nSub b).length = 2 ^ Nat.log 2 nSub := by
  obtain ⟨k, h1, h2, h3⟩ := refineLoop_length (α := α) (n := n) nSub nSub [(b.1, if flat then b.2 else b.1)] (by simp) (by simp)
  simp only [List.length_singleton, mul_one] at h1 h2 h3
  rw [refineBoxes, h1]
  have : Nat.log 2 nSub = k := (Nat.log_eq_iff (by right; exact ⟨by norm_num, by omega⟩)).2 ⟨h2 hn, by rw [pow_succ]; omega⟩
  rw [this]

theorem covers_step [Fintype ι] [DecidableEq ι] (bs : List (BoxOf ι α)) (b : BoxOf ι α) (h : Covers bs b) (i : ℕ) (j : ι) :
    Covers (refineStep bs i j) b := by
  unfold refineStep
  split
  · rename_i c hc
    obtain ⟨hi, rfl⟩ := List.getElem?_eq_some_iff.1 hc
    have hmem : bs[i] ∈ bs := List.getElem_mem hi
    constructor
    · intro hb d hd
      rcases List.mem_append.1 hd with hd | hd
      · rcases List.mem_or_eq_of_mem_set hd with hd | rfl
        · exact h.good hb d hd
        · have := good_low _ j (h.good hb _ hmem).1
          exact ⟨this.1, this.2.trans (h.good hb _ hmem).2⟩
      · rw [List.mem_singleton.1 hd]
        have := good_high _ j (h.good hb _ hmem).1
        exact ⟨this.1, this.2.trans (h.good hb _ hmem).2⟩
    · intro p hp
      obtain ⟨d, hd, hpd⟩ := h.cover p hp
      obtain ⟨k, hk, rfl⟩ := List.getElem_of_mem hd
      by_cases e : k = i
      · subst e
        rcases mem_half bs[k] j p hpd with h1 | h1
        · exact ⟨_, List.mem_append_left _ (List.mem_set hk _), h1⟩
        · exact ⟨_, List.mem_append_right _ (List.mem_singleton.2 rfl), h1⟩
      · refine ⟨bs[k], List.mem_append_left _ ?_, hpd⟩
        rw [List.mem_iff_getElem]
        exact ⟨k, by simpa using hk, by rw [List.getElem_set_ne (Ne.symm e)]⟩
  · exact h

theorem covers_refineBoxLoop (fuel nSplit : ℕ) (bs : List (BoxOf (Fin (n + 1)) α)) (ws : List (Fin (n + 1) → α))
    (b : BoxOf (Fin (n + 1)) α) (h : Covers bs b) : Covers (refineBoxLoop fuel nSplit bs ws) b := by
  induction fuel generalizing bs ws with
  | zero => exact h
  | succ f ih =>
    simp only [refineBoxLoop]
    split
    · split
      · exact h
      · exact ih _ _ (covers_step bs b h _ _)
    · exact h

omit [IsStrictOrderedRing α] in
theorem refineBoxLoop_length (fuel nSplit : ℕ) (bs : List (BoxOf (Fin (n + 1)) α)) (ws : List (Fin (n + 1) → α))
    (hw : ws.length = bs.length) (h0 : bs ≠ []) (hn : bs.length ≤ nSplit) (hf : nSplit ≤ fuel + bs.length) :
    (refineBoxLoop fuel nSplit bs ws).length = nSplit := by
  induction fuel generalizing bs ws with
  | zero => simp only [refineBoxLoop]; omega
  | succ f ih =>
    simp only [refineBoxLoop]
    split
    · rename_i hlt
      have hne : ws.map (fun w => w (argmax w)) ≠ [] := by
        intro e
        have := congrArg List.length e
        simp at this
        rw [this] at hw
        exact h0 (List.length_eq_zero_iff.1 hw.symm)
      have hidx : (ws.map fun w => w (argmax w)).findIdx (· = listMax (ws.map fun w => w (argmax w))) < ws.length := by
        have := List.findIdx_lt_length_of_exists (p := fun x => decide (x = listMax (ws.map fun w => w (argmax w))))
          (xs := ws.map fun w => w (argmax w)) ⟨_, listMax_mem hne, by simp⟩
        simpa using this
      rw [List.getElem?_eq_getElem hidx]
      dsimp only
      generalize (ws.map fun w => w (argmax w)).findIdx (· = listMax (ws.map fun w => w (argmax w))) = i at hidx ⊢
      have hl : (refineStep bs i (argmax ws[i])).length = bs.length + 1 := by
        simp [refineStep, List.getElem?_eq_getElem (show i < bs.length by omega)]
      apply ih
      · simp [hl, hw]
      · intro e; rw [e] at hl; simp at hl
      · omega
      · omega
    · omega

end Boxes

end Decomon
