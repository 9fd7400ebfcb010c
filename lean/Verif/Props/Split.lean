import Verif.Model.Split
import Verif.Props.Shapes
import Mathlib.Algebra.BigOperators.Fin
import Mathlib.Algebra.Order.Ring.Rat

/-! Property C164. -/

namespace Decomon

/-- Specification: the indices of a tensor of the given sizes. -/
def IndexOf (sizes idx : List ℕ) : Prop := idx.length = sizes.length ∧ ∀ k, k < sizes.length → idx.getD k 0 < sizes.getD k 0

/-- Specification: at the model input `p` (of size `d`), the tensors of the mode bound the values `y` of a layer of sizes `sizes`. -/
def NdBounds {α : Type*} [Semiring α] [PartialOrder α] (m : Mode) (sizes : List ℕ) (d : ℕ) (p : ℕ → α) (t : Nine (NdArr α)) (y : NdArr α) : Prop :=
  ∀ idx, IndexOf sizes idx →
    (m ≠ .affine → t.lc idx ≤ y idx ∧ y idx ≤ t.uc idx) ∧
    (m ≠ .ibp → ((List.range d).map fun i => slice i t.wl idx * p i).sum + t.bl idx ≤ y idx ∧
      y idx ≤ ((List.range d).map fun i => slice i t.wu idx * p i).sum + t.bu idx)

private theorem normAxis_lt {n k : ℕ} {a : ℤ} (h : normAxis n a = some k) : k < n := by
  unfold normAxis at h
  split at h
  · simp at h; omega
  · split at h
    · simp at h; omega
    · simp at h

/-- The part at position `j` of a tensor cut along the axis `k`. -/
private def cut {α : Type*} (k j : ℕ) (t : NdArr α) : NdArr α := fun idx => t (idx.set k (j + idx.getD k 0))

private theorem splitAxis_ok {α : Type*} (sizes : List ℕ) (n : ℕ) (a : ℤ) (k : ℕ) (hk : normAxis sizes.length a = some k)
    (hn : sizes.getD k 0 = n) (h0 : 0 < n) (t : NdArr α) :
    splitAxis sizes n a t = .ok ((List.range n).map fun j => cut k j t) := by
  unfold splitAxis
  rw [hk]
  dsimp only
  rw [hn, if_neg (by simp; omega), Nat.div_self h0]
  simp only [mul_one]
  rfl

private theorem slice_set {α : Type*} (w : NdArr α) (i k j : ℕ) (hk : 1 ≤ k) (idx : List ℕ) (hi : idx ≠ []) :
    slice i (cut (k + 1) j w) idx = cut k j (slice i w) idx := by
  unfold slice cut
  cases idx with
  | nil => exact absurd rfl hi
  | cons b t =>
    obtain ⟨k, rfl⟩ := Nat.exists_eq_add_of_le hk
    rw [show 1 + k = k + 1 by ring]
    simp

/-- The parts, tensor by tensor. -/
private theorem splitTensors_ok {α : Type*} (m : Mode) (sizes : List ℕ) (d : ℕ) (a : ℤ) (k : ℕ) (ha : 1 ≤ a)
    (hk : normAxis sizes.length a = some k) (n : ℕ) (hn : sizes.getD k 0 = n) (h0 : 0 < n) (e : NdArr α) (t : Nine (NdArr α)) :
    1 ≤ k ∧ k < sizes.length ∧ ∃ l : List (Nine (NdArr α)), splitTensors m false sizes d n a e t = .ok l ∧ l.length = n ∧
      ∀ j, j < n → ∃ r, l[j]? = some r ∧ r.x = t.x ∧ (m ≠ .affine → r.uc = cut k j t.uc ∧ r.lc = cut k j t.lc) ∧
        (m ≠ .ibp → r.bu = cut k j t.bu ∧ r.bl = cut k j t.bl ∧ r.wu = cut (k + 1) j t.wu ∧ r.wl = cut (k + 1) j t.wl) := by
  have hkl := normAxis_lt hk
  have hka : (k : ℤ) = a := by
    unfold normAxis at hk
    split at hk
    · simp at hk; omega
    · rw [if_neg (by omega)] at hk; simp at hk
  have hlen : (sizes.insertIdx 1 d).length = sizes.length + 1 := List.length_insertIdx_of_le_length (by omega) _
  have hkw : normAxis (sizes.insertIdx 1 d).length (a + 1) = some (k + 1) := by
    rw [hlen]
    unfold normAxis
    push_cast
    rw [if_pos (by omega)]
    simp
    omega
  have hnw : (sizes.insertIdx 1 d).getD (k + 1) 0 = n := by
    rw [List.getD_eq_getElem _ _ (by rw [hlen]; omega), List.getElem_insertIdx_of_gt (by omega)]
    rw [List.getD_eq_getElem _ _ hkl] at hn
    simpa using hn
  have hc := splitAxis_ok (α := α) sizes n a k hk hn h0
  have hw := splitAxis_ok (α := α) (sizes.insertIdx 1 d) n (a + 1) (k + 1) hkw hnw h0
  have hne : ¬ a = -1 := by omega
  refine ⟨by omega, hkl, ?_⟩
  cases m
  all_goals
    refine ⟨_, by simp [splitTensors, hc, hw, hne]; rfl, by simp, fun j hj => ⟨_, by rw [List.getElem?_map, List.getElem?_range hj]; rfl, ?_⟩⟩
    simp [hj]

private theorem indexOf_cut {sizes idx : List ℕ} {k n j : ℕ} (hk : k < sizes.length) (hn : sizes.getD k 0 = n) (hj : j < n)
    (h : IndexOf (sizes.set k 1) idx) : idx.getD k 0 = 0 ∧ IndexOf sizes (idx.set k j) := by
  obtain ⟨hl, hi⟩ := h
  rw [List.length_set] at hl hi
  have e : ∀ (l : List ℕ) (c q : ℕ), q < l.length → (l.set k c).getD q 0 = if k = q then c else l.getD q 0 := fun l c q hq => by
    rw [List.getD_eq_getElem _ _ (by rw [List.length_set]; exact hq), List.getElem_set, List.getD_eq_getElem _ _ hq]
  refine ⟨?_, by rw [List.length_set, hl], fun q hq => ?_⟩
  · have := hi k hk
    rw [e _ _ _ hk, if_pos rfl] at this
    omega
  · rw [e _ _ _ (by omega)]
    have := hi q hq
    rw [e _ _ _ hq] at this
    by_cases hq' : k = q
    · rw [if_pos hq']; subst hq'; omega
    · rwa [if_neg hq'] at this ⊢

private theorem indexOf_join {sizes idx : List ℕ} {k n : ℕ} (hk : k < sizes.length) (hn : sizes.getD k 0 = n) (h : IndexOf sizes idx) :
    idx.getD k 0 < n ∧ IndexOf (sizes.set k 1) (idx.set k 0) ∧ (idx.set k 0).set k (idx.getD k 0) = idx := by
  obtain ⟨hl, hi⟩ := h
  have e : ∀ (l : List ℕ) (c q : ℕ), q < l.length → (l.set k c).getD q 0 = if k = q then c else l.getD q 0 := fun l c q hq => by
    rw [List.getD_eq_getElem _ _ (by rw [List.length_set]; exact hq), List.getElem_set, List.getD_eq_getElem _ _ hq]
  refine ⟨hn ▸ hi k hk, ⟨by rw [List.length_set, List.length_set, hl], fun q hq => ?_⟩, ?_⟩
  · rw [List.length_set] at hq
    rw [e _ _ _ (by omega), e _ _ _ hq]
    split
    · exact Nat.one_pos
    · exact hi q hq
  · rw [List.set_set, List.getD_eq_getElem _ _ (by omega), List.set_getElem_self]

/-- The claim of C164 for the list of parts `res`: there is one part per position of the axis `k` (of size `n`), and the tensors `t` bound a
layer `y` at a model input exactly when every part bounds the entries of `y` at its position. -/
def PartsBound {α : Type*} [Semiring α] [PartialOrder α] (m : Mode) (sizes : List ℕ) (d k n : ℕ) (t : Nine (NdArr α))
    (res : Except PyErr (List (Nine (NdArr α)))) : Prop :=
  ∃ l, res = .ok l ∧ l.length = n ∧ (∀ r ∈ l, r.x = t.x) ∧ ∀ p y, NdBounds m sizes d p t y ↔
    ∀ j r, l[j]? = some r → NdBounds m (sizes.set k 1) d p r fun idx => y (idx.set k j)

private theorem splitTensors_parts {α : Type*} [Semiring α] [PartialOrder α] (m : Mode) (sizes : List ℕ) (d : ℕ) (a : ℤ) (k : ℕ) (ha : 1 ≤ a)
    (hk : normAxis sizes.length a = some k) (n : ℕ) (hn : sizes.getD k 0 = n) (h0 : 0 < n) (e : NdArr α) (t : Nine (NdArr α)) :
    PartsBound m sizes d k n t (splitTensors m false sizes d n a e t) := by
  obtain ⟨hk1, hkl, l, hl, hlen, h⟩ := splitTensors_ok m sizes d a k ha hk n hn h0 e t
  have key : ∀ (p : ℕ → α) (y : NdArr α) (j : ℕ) (r : Nine (NdArr α)) (idx : List ℕ), l[j]? = some r → idx ≠ [] → idx.getD k 0 = 0 → (((m ≠ .affine → r.lc idx ≤ y (idx.set k j) ∧ y (idx.set k j) ≤ r.uc idx) ∧
      (m ≠ .ibp → ((List.range d).map fun i => slice i r.wl idx * p i).sum + r.bl idx ≤ y (idx.set k j) ∧
        y (idx.set k j) ≤ ((List.range d).map fun i => slice i r.wu idx * p i).sum + r.bu idx)) ↔
      ((m ≠ .affine → t.lc (idx.set k j) ≤ y (idx.set k j) ∧ y (idx.set k j) ≤ t.uc (idx.set k j)) ∧
      (m ≠ .ibp → ((List.range d).map fun i => slice i t.wl (idx.set k j) * p i).sum + t.bl (idx.set k j) ≤ y (idx.set k j) ∧
        y (idx.set k j) ≤ ((List.range d).map fun i => slice i t.wu (idx.set k j) * p i).sum + t.bu (idx.set k j)))) := by
    intro p y j r idx hr hi h00
    have hj : j < n := by rw [← hlen]; exact (List.getElem?_eq_some_iff.mp hr).1
    obtain ⟨r', hr', -, h1, h2⟩ := h j hj
    obtain rfl : r' = r := by rw [hr'] at hr; exact Option.some.inj hr
    have ec : ∀ v : NdArr α, cut k j v idx = v (idx.set k j) := fun v => by unfold cut; rw [h00, Nat.add_zero]
    refine and_congr (imp_congr_right fun hm => ?_) (imp_congr_right fun hm => ?_)
    · obtain ⟨e1, e2⟩ := h1 hm
      rw [e1, e2, ec, ec]
    · obtain ⟨e1, e2, e3, e4⟩ := h2 hm
      rw [e1, e2, e3, e4, ec, ec]
      simp only [slice_set _ _ k j hk1 idx hi, ec]
  refine ⟨l, hl, hlen, fun r hr => ?_, fun p y => ⟨fun hb j r hr idx hi => ?_, fun hb idx hi => ?_⟩⟩
  · obtain ⟨j, hj, rfl⟩ := List.getElem_of_mem hr
    obtain ⟨r, hr, hx, -⟩ := h j (hlen ▸ hj)
    rw [List.getElem?_eq_getElem hj] at hr
    rw [Option.some.inj hr, hx]
  · have hj : j < n := by rw [← hlen]; exact (List.getElem?_eq_some_iff.mp hr).1
    obtain ⟨h00, hi'⟩ := indexOf_cut hkl hn hj hi
    have hne : idx ≠ [] := by
      rintro rfl
      have := hi.1
      rw [List.length_set, List.length_nil] at this
      omega
    exact (key p y j r idx hr hne h00).mpr (hb _ hi')
  · obtain ⟨hj, hi', he⟩ := indexOf_join hkl hn hi
    obtain ⟨r, hr, -⟩ := h _ hj
    have hne : idx.set k 0 ≠ [] := by
      intro h'
      have := congrArg List.length h'
      rw [List.length_set, hi.1, List.length_nil] at this
      omega
    have h00 : (idx.set k 0).getD k 0 = 0 := by
      rw [List.getD_eq_getElem _ _ (by rw [List.length_set, hi.1]; exact hkl), List.getElem_set_self]
    have := (key p y _ r (idx.set k 0) hr hne h00).mp (hb _ r hr _ hi')
    rwa [he] at this

private theorem splitCount_ok (shape : KShape) (axis : ℤ) (h : axis = -1 ∨ 1 ≤ axis) (h2 : 2 ≤ shape.length) (k n : ℕ)
    (hk : normAxis shape.length axis = some k) (hn : shape.getD k none = some n) :
    ∃ a : ℤ, 1 ≤ a ∧ normAxis shape.length a = some k ∧ splitCount shape axis = .ok (n, a) := by
  refine ⟨if axis = -1 then (shape.length : ℤ) - 1 else axis, ?_, ?_, ?_⟩
  · split <;> omega
  · split
    · rename_i e
      subst e
      unfold normAxis at hk ⊢
      rw [if_neg (by omega), if_pos (by omega)] at hk
      rw [if_pos (by omega)]
      simp at hk ⊢
      omega
    · exact hk
  · unfold splitCount
    rw [hk]
    dsimp only
    rw [hn]

/-- C164, `sort`: for the last axis (`-1`) and positive axes, the parts on which `sort` works are one per position of the axis and carry
exactly the bounds of the entries at this position. -/
theorem C164_sort_partial {α : Type*} [Semiring α] [PartialOrder α] (m : Mode) (shape : KShape) (sizes : List ℕ) (hs : shape.length = sizes.length)
    (d : ℕ) (axis : ℤ) (h : axis = -1 ∨ 1 ≤ axis) (h2 : 2 ≤ shape.length) (k n : ℕ) (hk : normAxis shape.length axis = some k)
    (hn : shape.getD k none = some n) (hn' : sizes.getD k 0 = n) (h0 : 0 < n) (e : NdArr α) (t : Nine (NdArr α)) :
    PartsBound m sizes d k n t (sortParts m false shape sizes d axis e t) := by
  obtain ⟨a, ha, hka, hc⟩ := splitCount_ok shape axis h h2 k n hk hn
  have := splitTensors_parts m sizes d a k ha (hs ▸ hka) n hn' h0 e t
  unfold sortParts
  rw [hc]
  exact this

/-- C164, `split`: the same, if `K.split` accepted the keyword argument `num_or_size_splits`. -/
theorem C164_split_partial {α : Type*} [Semiring α] [PartialOrder α] (m : Mode) (shape : KShape) (sizes : List ℕ) (hs : shape.length = sizes.length)
    (d : ℕ) (axis : ℤ) (h : axis = -1 ∨ 1 ≤ axis) (h2 : 2 ≤ shape.length) (k n : ℕ) (hk : normAxis shape.length axis = some k)
    (hn : shape.getD k none = some n) (hn' : sizes.getD k 0 = n) (h0 : 0 < n) (e : NdArr α) (t : Nine (NdArr α)) :
    PartsBound m sizes d k n t (splitUtil true m false shape sizes d axis e t) := by
  have := C164_sort_partial m shape sizes hs d axis h h2 k n hk hn hn' h0 e t
  unfold sortParts at this
  unfold splitUtil
  obtain ⟨a, -, -, hc⟩ := splitCount_ok shape axis h h2 k n hk hn
  rw [hc] at this ⊢
  exact this

/-- C164 is false for `split` with Keras 3: whatever the mode, the axis, the sizes and the tensors, it raises. -/
theorem C164_split_refuted {α : Type*} (m : Mode) (dc : Bool) (shape : KShape) (sizes : List ℕ) (d : ℕ) (axis : ℤ) (e : NdArr α)
    (t : Nine (NdArr α)) : ∃ r, splitUtil false m dc shape sizes d axis e t = .error r := by
  unfold splitUtil
  split
  · exact ⟨_, rfl⟩
  · exact ⟨.typeError, rfl⟩

/-- The tensors of the layer `y` of sizes `(1, 2, 2)` and one model input `p` with `y[0, a, b] = b * p`, exact in affine mode. -/
def cutWitness : Nine (NdArr ℚ) :=
  let z : NdArr ℚ := fun _ => 0
  let w : NdArr ℚ := fun idx => if idx.getD 3 0 = 1 then 1 else 0
  { x := z, uc := z, wu := w, bu := z, lc := z, wl := w, bl := z, h := z, g := z }

/-- C164 is false for `sort` along axis `-2`: the weights are cut along the last axis.  The tensors `cutWitness` are the exact bounds of
`[[0, p], [0, p]]`, and the first entry of the second part, `0`, is bounded by `p` from below. -/
theorem C164_negative_axis_refuted : ∃ l r y, sortParts .affine false [none, some 2, some 2] [1, 2, 2] 1 (-2) (fun _ => 0) cutWitness = .ok l ∧
    l[1]? = some r ∧ NdBounds .affine [1, 2, 2] 1 (fun _ => 1) cutWitness y ∧
    ¬ NdBounds .affine [1, 1, 2] 1 (fun _ => 1) r fun idx => y (idx.set 1 1) := by
  refine ⟨_, _, fun idx => if idx.getD 2 0 = 1 then 1 else 0, rfl, rfl, fun idx hi => ⟨fun h => absurd rfl h, fun _ => ?_⟩, fun h => ?_⟩
  · obtain ⟨hl, -⟩ := hi
    match idx, hl with
    | [i, j, k], _ => simp [cutWitness, slice]
  · have := ((h [0, 0, 0] ⟨rfl, fun k hk => by
      match k, hk with
      | 0, _ => decide
      | 1, _ => decide
      | 2, _ => decide⟩).2 (by decide)).1
    revert this
    decide +kernel

/-- C164, sizes that do not fit: along axis `-2` of a layer of sizes `(2, 3)`, `sort` raises in the modes with weights. -/
theorem C164_negative_axis_raises_refuted {α : Type*} (m : Mode) (hm : m ≠ .ibp) (b d : ℕ) (e : NdArr α) (t : Nine (NdArr α)) :
    sortParts m false [none, some 2, some 3] [b, 2, 3] d (-2) e t = .error .valueError := by
  cases m
  · exact absurd rfl hm
  all_goals
    simp [sortParts, splitCount, normAxis, splitTensors, splitAxis]
    rfl

/-- Non-vacuity of C164: the two rows (axis 1) of a layer of sizes `(2, 2)`; the second part carries the bounds of the second row. -/
example : ∃ l r, sortParts .affine false [none, some 2, some 2] [1, 2, 2] 1 1 (fun _ => 0) cutWitness = .ok l ∧ l.length = 2 ∧
    l[1]? = some r ∧ r.wl [0, 0, 0, 1] = 1 ∧ r.wl [0, 0, 0, 0] = 0 :=
  ⟨_, _, rfl, rfl, rfl, by decide +kernel, by decide +kernel⟩

example : PartsBound .affine [1, 2, 2] 1 1 2 cutWitness (sortParts .affine false [none, some 2, some 2] [1, 2, 2] 1 1 (fun _ => 0) cutWitness) :=
  C164_sort_partial .affine _ _ rfl 1 1 (by decide) (by decide) 1 2 rfl rfl rfl (by decide) _ _

/-- Non-vacuity of C164: the last axis, given as `-1`. -/
example : PartsBound .hybrid [1, 2, 3] 1 2 3 cutWitness
    (splitUtil true .hybrid false [none, some 2, some 3] [1, 2, 3] 1 (-1) (fun _ => 0) cutWitness) :=
  C164_split_partial .hybrid _ _ rfl 1 (-1) (by decide) (by decide) 2 3 rfl rfl rfl (by decide) _ _

/-- With Keras 3 the same call raises `TypeError`. -/
example : (splitUtil false .hybrid false [none, some 2, some 3] [1, 2, 3] 1 (-1) (fun _ => 0) cutWitness) = .error .typeError := rfl

example : sortParts .hybrid false [none, some 2, some 3] [1, 2, 3] 1 (-2) (fun _ => 0) cutWitness = .error .valueError :=
  C164_negative_axis_raises_refuted .hybrid (by decide) 1 1 _ _

end Decomon
