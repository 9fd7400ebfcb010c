import Verif.Model.Shapes
import Mathlib.Data.List.GetD

/-! Properties C48, C56, C83. -/

namespace Decomon

/-! ### C48 -/

/-- Specification: the shapes of the tensors of a layer with output `y` (without batch size), for batch size `b`, an `x` of shape
`b :: xs`, and `n` model inputs. -/
def LayerShapes (m : Mode) (dc : Bool) (b : Option ℕ) (xs : KShape) (n : Option ℕ) (y : KShape) : List KShape :=
  (match m with
    | .hybrid => [b :: xs, b :: y, b :: n :: y, b :: y, b :: y, b :: n :: y, b :: y]
    | .ibp => [b :: y, b :: y]
    | .affine => [b :: xs, b :: n :: y, b :: y, b :: n :: y, b :: y]) ++ (if dc then [b :: y, b :: y] else [])

private theorem layerShapes_last (m : Mode) (dc : Bool) (b : Option ℕ) (xs : KShape) (n : Option ℕ) (y : KShape) :
    (LayerShapes m dc b xs n y).getLast? = some (b :: y) := by
  cases m <;> cases dc <;> rfl

private theorem getLast?_cons_some {τ : Type*} (b n : τ) (xs : List τ) (h : xs.getLast? = some n) : (b :: xs).getLast? = some n := by
  rw [List.getLast?_cons, h]; rfl

/-- C48: on the shapes of a layer with output `y`, `compute_output_shape` returns the shapes of a layer whose output is that of the Keras
layer, for every mode, with or without `dc_decomp`, for all ranks and sizes (known or not). -/
theorem C48_layer (m : Mode) (dc : Bool) (xWo : KShape) (keras : KShape → Except PyErr KShape) (b : Option ℕ) (xs : KShape)
    (n : Option ℕ) (hx : xs.getLast? = some n) (y yo : KShape) (hk : keras (b :: y) = .ok (b :: yo)) :
    computeOutputShape m dc xWo keras (LayerShapes m dc b xs n y) = .ok (LayerShapes m dc b xs n yo) := by
  unfold computeOutputShape
  rw [layerShapes_last]
  simp only [hk]
  have hx' := getLast?_cons_some b n xs hx
  cases m <;> cases dc <;>
    simp [LayerShapes, fullInputShapes, fullInputsList, nbTensors, extractForMode, getAffine, hx', List.getLast?_cons]

/-- C48: a Keras layer without `compute_output_shape` keeps the shapes. -/
theorem C48_layer_noShape (m : Mode) (dc : Bool) (xWo : KShape) (keras : KShape → Except PyErr KShape) (b : Option ℕ) (xs : KShape)
    (n : Option ℕ) (y : KShape) (hk : keras (b :: y) = .error .notImplemented) :
    computeOutputShape m dc xWo keras (LayerShapes m dc b xs n y) = .ok (LayerShapes m dc b xs n y) := by
  unfold computeOutputShape
  rw [layerShapes_last]
  simp only [hk]

/-- C48: an error of the Keras shape function (e.g. incompatible sizes) is passed on. -/
theorem C48_layer_error (m : Mode) (dc : Bool) (xWo : KShape) (keras : KShape → Except PyErr KShape) (b : Option ℕ) (xs : KShape)
    (n : Option ℕ) (y : KShape) (e : PyErr) (he : e ≠ .notImplemented) (hk : keras (b :: y) = .error e) :
    computeOutputShape m dc xWo keras (LayerShapes m dc b xs n y) = .error e := by
  unfold computeOutputShape
  rw [layerShapes_last]
  simp only [hk]

/-- C48: for `DecomonDense` the symbolic shapes are the shapes of the tensors computed by `call`, for inputs of any rank. -/
theorem C48_dense (m : Mode) (dc : Bool) (xWo : KShape) (b : Option ℕ) (xs : KShape) (n : Option ℕ) (hx : xs.getLast? = some n)
    (y : KShape) (hy : y ≠ []) (d units : Option ℕ) :
    denseCallShapes m dc [d, units] (LayerShapes m dc b xs n y)
      = computeOutputShape m dc xWo (fun s => .ok (s.dropLast ++ [units])) (LayerShapes m dc b xs n y) := by
  have hb : ∀ (a : Option ℕ) (t : KShape), t ≠ [] → (a :: t).dropLast ++ [units] = a :: (t.dropLast ++ [units]) := by
    intro a t ht
    rw [List.dropLast_cons_of_ne_nil ht, List.cons_append]
  rw [C48_layer m dc xWo _ b xs n hx y (y.dropLast ++ [units]) (by rw [hb b y hy])]
  have h1 : dotShape (b :: y) [d, units] = b :: (y.dropLast ++ [units]) := hb b y hy
  have h2 : dotShape (b :: n :: y) [d, units] = b :: n :: (y.dropLast ++ [units]) := by
    unfold dotShape
    rw [List.drop_one, List.tail_cons, hb b (n :: y) (by simp), List.dropLast_cons_of_ne_nil hy, List.cons_append]
  cases m <;> cases dc <;>
    simp [denseCallShapes, LayerShapes, fullInputsList, nbTensors, extractForMode, h1, h2]

/-- C48 is false with backward bounds: the matrix `C` is the last input, so `compute_output_shape` takes its shape for that of the layer
input.  The symbolic shapes are not those of the tensors: the ranks differ, whatever the sizes. -/
theorem C48_backward_bounds_refuted (xWo : KShape) (b d units nc : Option ℕ) :
    ∃ s s', computeOutputShape .ibp false xWo (fun s => .ok (s.dropLast ++ [units]))
        (LayerShapes .ibp false b [] none [d] ++ [[b, units, nc]]) = .ok s ∧
      denseBackCallShapesIbp nc (LayerShapes .ibp false b [] none [d]) = .ok s' ∧ s.map List.length ≠ s'.map List.length := by
  refine ⟨[[b, units, units], [b, units, units]], [[b, nc], [b, nc]], ?_, ?_, by simp⟩
  · simp [computeOutputShape, LayerShapes, fullInputShapes, fullInputsList, nbTensors, extractForMode, getAffine]
  · simp [denseBackCallShapesIbp, LayerShapes, fullInputsList, nbTensors]

/-- Splitting the concatenation of `k` lists of shapes gives them back. -/
private theorem splitToMerge_flatten {τ : Type*} (m : Mode) (dc : Bool) (L : List (List τ)) (h : ∀ l ∈ L, l.length = nbTensors m dc) :
    splitToMerge m dc L.flatten = L := by
  have hpos : 0 < nbTensors m dc := by cases m <;> cases dc <;> decide
  have hlen : L.flatten.length = L.length * nbTensors m dc := by
    rw [List.length_flatten]
    have : L.map List.length = List.replicate L.length (nbTensors m dc) := by
      rw [List.eq_replicate_iff]
      refine ⟨by simp, fun a ha => ?_⟩
      obtain ⟨l, hl, rfl⟩ := List.mem_map.1 ha
      exact h l hl
    rw [this]; simp
  unfold splitToMerge
  rw [hlen, Nat.mul_div_cancel _ hpos]
  generalize nbTensors m dc = N at *
  clear hlen
  apply List.ext_getElem
  · simp
  intro i h1 h2
  simp only [List.getElem_map, List.getElem_range, pySlice]
  clear h1
  induction L generalizing i with
  | nil => simp at h2
  | cons a t ih =>
    have ha : a.length = N := h a (by simp)
    cases i with
    | zero => simp [List.take_append, ha]
    | succ i =>
      have := ih (fun l hl => h l (by simp [hl])) i (by simpa using h2)
      simp only [List.flatten_cons, List.getElem_cons_succ]
      rw [← this, List.take_append, List.drop_append]
      have e1 : N * (i + 1 + 1) - a.length = N * (i + 1) := by rw [ha, Nat.mul_succ]; omega
      have e2 : (List.take (N * (i + 1 + 1)) a).length = N := by
        rw [List.length_take, ha]; exact Nat.min_eq_right (Nat.le_mul_of_pos_right _ (by omega))
      rw [e1, e2]
      have e3 : N * (i + 1) - N = N * i := by rw [Nat.mul_succ]; omega
      rw [e3, List.drop_eq_nil_of_le, List.nil_append]
      rw [e2]; exact Nat.le_mul_of_pos_right _ (by omega)

/-- C48, merge layers: on the shapes of several layers with outputs `y0, ys`, the symbolic shapes are those of a layer whose output is that
of the Keras merge layer. -/
theorem C48_merge (m : Mode) (dc : Bool) (xWo : KShape) (keras : List KShape → Except PyErr KShape) (b : Option ℕ) (xs : KShape)
    (n : Option ℕ) (hx : xs.getLast? = some n) (y0 : KShape) (ys : List KShape) (yo : KShape)
    (hk : keras ((y0 :: ys).map (b :: ·)) = .ok (b :: yo)) :
    mergeOutputShape m dc xWo keras ((y0 :: ys).map (LayerShapes m dc b xs n)).flatten = .ok (LayerShapes m dc b xs n yo) := by
  have hs := splitToMerge_flatten m dc ((y0 :: ys).map (LayerShapes m dc b xs n)) (by
    intro l hl
    obtain ⟨y, _, rfl⟩ := List.mem_map.1 hl
    cases m <;> cases dc <;> rfl)
  unfold mergeOutputShape
  rw [hs]
  have hys : ((y0 :: ys).map (LayerShapes m dc b xs n)).map (fun s => s.getLast?.getD []) = (y0 :: ys).map (b :: ·) := by
    rw [List.map_map]
    apply List.map_congr_left
    intro y _
    simp [layerShapes_last]
  simp only [List.map_cons] at hys hk ⊢
  simp only [hys, hk]
  split
  · rename_i h
    simp only [List.head?_cons, Option.some.injEq, List.cons.injEq, true_and] at h
    rw [h]
  · have hx' := getLast?_cons_some b n xs hx
    cases m <;> cases dc <;>
      simp [LayerShapes, fullInputShapes, fullInputsList, nbTensors, extractForMode, getAffine, hx', List.getLast?_cons]

/-- C48, change of mode: the symbolic shapes of `Convert2Mode` are the shapes of the tensors of `call`, unless the change is from ibp to a
mode with affine bounds.  Missing: that case, where it is false (`C48_convert2mode_refuted`). -/
theorem C48_convert2mode_partial (mFrom mTo : Mode) (dc : Bool) (h : mFrom = .ibp → mTo = .ibp) (xWo : KShape) (b : Option ℕ) (xs : KShape)
    (n : Option ℕ) (y : KShape) :
    convert2ModeShapes mFrom mTo dc xWo (LayerShapes mFrom dc b xs n y) = convert2ModeCallShapes mFrom mTo dc (LayerShapes mFrom dc b xs n y) ∧
    convert2ModeShapes mFrom mTo dc xWo (LayerShapes mFrom dc b xs n y) = .ok (LayerShapes mTo dc b xs n y) := by
  cases mFrom <;> cases mTo <;> cases dc <;>
    simp_all [convert2ModeShapes, convert2ModeCallShapes, LayerShapes, fullInputShapes, fullInputsList, nbTensors, extractForMode,
      Except.map, List.getLast?_cons]

/-- C48 is false for `Convert2Mode` from ibp to affine or hybrid: a model with 3 inputs and 2 outputs on a box: the symbolic `x` has the
size of the model input, the tensor that of the output. -/
theorem C48_convert2mode_refuted (mTo : Mode) (h : mTo ≠ .ibp) (b : Option ℕ) :
    convert2ModeShapes .ibp mTo false [some 2, some 3] (LayerShapes .ibp false b [some 2, some 3] (some 3) [some 2])
      ≠ convert2ModeCallShapes .ibp mTo false (LayerShapes .ibp false b [some 2, some 3] (some 3) [some 2]) := by
  cases mTo <;>
    simp_all [convert2ModeShapes, convert2ModeCallShapes, LayerShapes, fullInputShapes, fullInputsList, nbTensors, extractForMode, Except.map]

/-- C48, `Convert2Mode` from ibp to affine or hybrid: both computations succeed for all shapes, and the announced shapes are the right ones
exactly when the domain announces for `x` two rows of the shape of the output: that is the shape of the tensor `x` which `call` builds. -/
theorem C48_convert2mode_ibp_iff (mTo : Mode) (h : mTo ≠ .ibp) (dc : Bool) (xWo : KShape) (b : Option ℕ) (xs : KShape) (n : Option ℕ)
    (y : KShape) :
    (∃ s, convert2ModeShapes .ibp mTo dc xWo (LayerShapes .ibp dc b xs n y) = .ok s) ∧
    (∃ s, convert2ModeCallShapes .ibp mTo dc (LayerShapes .ibp dc b xs n y) = .ok s ∧ s.head? = some (b :: some 2 :: y)) ∧
    (convert2ModeShapes .ibp mTo dc xWo (LayerShapes .ibp dc b xs n y) = convert2ModeCallShapes .ibp mTo dc (LayerShapes .ibp dc b xs n y) ↔
      xWo = some 2 :: y) := by
  cases mTo <;> cases dc <;>
    simp_all [convert2ModeShapes, convert2ModeCallShapes, LayerShapes, fullInputShapes, fullInputsList, nbTensors, extractForMode, Except.map,
      List.getLast?_cons]

/-- C48, backward layers: for known sizes the symbolic shapes are those of matrices from the flattened output to the flattened input;
merging the bounds of two layers in a row gives those of the composition. -/
theorem C48_backward (b : Option ℕ) (i h o : List ℕ) :
    backwardOutputShape (b :: i.map some) (b :: o.map some)
      = .ok [[b, some i.prod, some o.prod], [b, some o.prod], [b, some i.prod, some o.prod], [b, some o.prod]] ∧
    (do
      let s ← backwardOutputShape (b :: i.map some) (b :: h.map some)
      let t ← backwardOutputShape (b :: h.map some) (b :: o.map some)
      mergeWithPreviousShapes (s ++ t)) = backwardOutputShape (b :: i.map some) (b :: o.map some) := by
  have hp : ∀ l : List ℕ, prodShape (l.map some) = .ok l.prod := by
    intro l
    induction l with
    | nil => rfl
    | cons a t ih => simp [prodShape, ih, Except.map]
  constructor
  · simp [backwardOutputShape, hp]
  · simp [backwardOutputShape, hp, bind, Except.bind, mergeWithPreviousShapes]

/-- C48, backward layers: the symbolic shapes exist exactly when all the sizes except the batch are known; otherwise `TypeError`. -/
theorem C48_backward_unknown (b b' : Option ℕ) (i o : KShape) :
    (backwardOutputShape (b :: i) (b' :: o) = .error .typeError ↔ none ∈ i ∨ none ∈ o) ∧
    ((∃ s, backwardOutputShape (b :: i) (b' :: o) = .ok s) ↔ none ∉ i ∧ none ∉ o) := by
  have hp : ∀ l : KShape, (none ∈ l → prodShape l = .error .typeError) ∧ (none ∉ l → ∃ n, prodShape l = .ok n) := by
    intro l
    induction l with
    | nil => exact ⟨by simp, fun _ => ⟨1, rfl⟩⟩
    | cons a t ih =>
      cases a with
      | none => exact ⟨fun _ => rfl, by simp⟩
      | some a =>
        refine ⟨fun h => ?_, fun h => ?_⟩
        · simp [prodShape, ih.1 (by simpa using h), Except.map]
        · obtain ⟨n, hn⟩ := ih.2 (by simpa using h)
          exact ⟨a * n, by simp [prodShape, hn, Except.map]⟩
  by_cases hi : none ∈ i
  · simp [backwardOutputShape, (hp i).1 hi, hi]
  · obtain ⟨n, hn⟩ := (hp i).2 hi
    by_cases ho : none ∈ o
    · simp [backwardOutputShape, hn, (hp o).1 ho, hi, ho]
    · obtain ⟨k, hk⟩ := (hp o).2 ho
      simp [backwardOutputShape, hn, hk, hi, ho]

/-- C48: a layer from `(None, 5, 3)` to `(None, None, 4)`. -/
example : backwardOutputShape [none, some 5, some 3] [none, none, some 4] = .error .typeError ∧
    backwardOutputShape [none, some 5, some 3] [none, some 5, some 4] =
      .ok [[none, some 15, some 20], [none, some 20], [none, some 15, some 20], [none, some 20]] := by decide +kernel

/-- Non-vacuity of C48: `Dense(4)` on a rank 3 input of shape `(None, 5, 3)`, hybrid mode, box domain, 6 model inputs. -/
example : computeOutputShape .hybrid false [some 2, some 6] (fun s => .ok (s.dropLast ++ [some 4]))
      (LayerShapes .hybrid false none [some 2, some 6] (some 6) [some 5, some 3])
    = .ok (LayerShapes .hybrid false none [some 2, some 6] (some 6) [some 5, some 4]) := by decide +kernel

/-! ### C56 -/

/-- The list of axes that moves axis `k` to position `p`. -/
def moveList (n k p : ℕ) : List ℕ := ((List.range n).eraseIdx k).insertIdx p k

private theorem eraseIdx_range (n k i : ℕ) (h : i < ((List.range n).eraseIdx k).length) :
    ((List.range n).eraseIdx k)[i] = if i < k then i else i + 1 := by
  rw [List.getElem_eraseIdx]
  split <;> simp

private theorem moveList_length (n k p : ℕ) (hk : k < n) (hp : p < n) : (moveList n k p).length = n := by
  have hlen : ((List.range n).eraseIdx k).length = n - 1 := by rw [List.length_eraseIdx_of_lt (by simpa)]; simp
  rw [moveList, List.length_insertIdx_of_le_length (by omega), hlen]; omega

private theorem moveList_idxOf (n k p q : ℕ) (hk : k < n) (hp : p < n) (hq : q < n) :
    (moveList n k p).idxOf ((moveList n k p)[q]'(by rw [moveList_length n k p hk hp]; exact hq)) = q := by
  have hlen : ((List.range n).eraseIdx k).length = n - 1 := by rw [List.length_eraseIdx_of_lt (by simpa)]; simp
  have hnd : (moveList n k p).Nodup := by
    unfold moveList
    rw [(List.perm_insertIdx k _ (by omega : p ≤ ((List.range n).eraseIdx k).length)).nodup_iff, List.nodup_cons]
    refine ⟨fun hm => ?_, List.nodup_range.eraseIdx k⟩
    obtain ⟨i, hi, he⟩ := List.getElem_of_mem hm
    rw [eraseIdx_range] at he
    split at he <;> omega
  exact hnd.idxOf_getElem q _

private theorem move_index (n k p : ℕ) (hk : k < n) (hp : p < n) (rest : List ℕ) (hr : rest.length = n - 1) (j : ℕ) :
    ((List.range n).map fun a => (rest.insertIdx p j).getD ((moveList n k p).idxOf a) 0) = rest.insertIdx k j := by
  have hlen : ((List.range n).eraseIdx k).length = n - 1 := by rw [List.length_eraseIdx_of_lt (by simpa)]; simp
  have hl1 : (rest.insertIdx k j).length = n := by rw [List.length_insertIdx_of_le_length (by omega), hr]; omega
  have hl2 : (rest.insertIdx p j).length = n := by rw [List.length_insertIdx_of_le_length (by omega), hr]; omega
  apply List.ext_getElem
  · simp [hl1]
  intro a h1 h2
  simp only [List.getElem_map, List.getElem_range]
  have ha : a < n := by simpa using h1
  by_cases hak : a = k
  · subst hak
    have := moveList_idxOf n a p p hk hp hp
    have e : (moveList n a p)[p]'(by rw [moveList_length n a p hk hp]; exact hp) = a := by
      simp [moveList, List.getElem_insertIdx_self]
    rw [e] at this
    rw [this, List.getD_eq_getElem _ _ (by omega), List.getElem_insertIdx_self, List.getElem_insertIdx_self]
  · -- position of `a` among the axes without `k`
    obtain ⟨q, hq, hqa⟩ : ∃ q, q < n - 1 ∧ (if q < k then q else q + 1) = a := by
      by_cases h : a < k
      · exact ⟨a, by omega, by simp [h]⟩
      · exact ⟨a - 1, by omega, by rw [if_neg (by omega)]; omega⟩
    have hR : (rest.insertIdx k j)[a] = rest[q] := by
      by_cases h : q < k
      · rw [if_pos h] at hqa; subst hqa
        rw [List.getElem_insertIdx_of_lt h]
      · rw [if_neg h] at hqa; subst hqa
        rw [List.getElem_insertIdx_of_gt (by omega)]
        simp
    by_cases h : q < p
    · have := moveList_idxOf n k p q hk hp (by omega)
      have e : (moveList n k p)[q]'(by rw [moveList_length n k p hk hp]; omega) = a := by
        unfold moveList
        rw [List.getElem_insertIdx_of_lt h, eraseIdx_range, hqa]
      rw [e] at this
      rw [this, List.getD_eq_getElem _ _ (by omega), List.getElem_insertIdx_of_lt h, hR]
    · have := moveList_idxOf n k p (q + 1) hk hp (by omega)
      have e : (moveList n k p)[q + 1]'(by rw [moveList_length n k p hk hp]; omega) = a := by
        unfold moveList
        rw [List.getElem_insertIdx_of_gt (by omega), eraseIdx_range]
        simpa using hqa
      rw [e] at this
      rw [this, List.getD_eq_getElem _ _ (by omega), List.getElem_insertIdx_of_gt (by omega), hR]
      simp

theorem moveIndex_eq (n : ℕ) (axis : ℤ) (k p : ℕ) (hk : normAxis n axis = some k) (hp : p < n) :
    ∃ L, moveIndex n axis p = .ok L ∧ (L.map fun c => (normAxis n c).getD n) = moveList n k p := by
  have hkn : k < n := by
    unfold normAxis at hk
    split at hk
    · simp at hk; omega
    · split at hk
      · simp at hk; omega
      · simp at hk
  have hlen : (((List.range n).map Int.ofNat).eraseIdx k).length = n - 1 := by
    rw [List.length_eraseIdx_of_lt (by simpa)]; simp
  refine ⟨(((List.range n).map Int.ofNat).eraseIdx k).insertIdx p axis, ?_, ?_⟩
  · have : npDelete ((List.range n).map Int.ofNat) axis = .ok (((List.range n).map Int.ofNat).eraseIdx k) := by
      simp [npDelete, hk]
    unfold moveIndex
    rw [this]
    simp only [npInsert, hlen]
    rw [if_pos ⟨by omega, by omega⟩]
    simp
  · rw [List.map_insertIdx, ← List.eraseIdx_map, List.map_map]
    unfold moveList
    have e : List.map ((fun c => (normAxis n c).getD n) ∘ Int.ofNat) (List.range n) = List.range n := by
      conv_rhs => rw [← List.map_id (List.range n)]
      apply List.map_congr_left
      intro c hc
      have hc : c < n := by simpa using hc
      simp [normAxis, hc]
    rw [e, hk]
    rfl

/-- Specification: `t'` is `t` with axis `k` moved to position `p` (the other axes keep their order). -/
def MovesAxis {α : Type*} (n k p : ℕ) (t t' : NdArr α) : Prop :=
  ∀ (rest : List ℕ) (j : ℕ), rest.length = n - 1 → t' (rest.insertIdx p j) = t (rest.insertIdx k j)

private theorem transpose_moves {α : Type*} (n : ℕ) (axis : ℤ) (k p : ℕ) (hk : normAxis n axis = some k) (hp : p < n) (t : NdArr α) :
    ∃ L, moveIndex n axis p = .ok L ∧ MovesAxis n k p t (transposeArr n L t) := by
  obtain ⟨L, h1, h2⟩ := moveIndex_eq n axis k p hk hp
  refine ⟨L, h1, fun rest j hr => ?_⟩
  have hkn : k < n := by
    unfold normAxis at hk
    split at hk
    · simp at hk; omega
    · split at hk
      · simp at hk; omega
      · simp at hk
  simp only [transposeArr, h2, move_index n k p hkn hp rest hr j]

/-- C56, constants (hence the whole of ibp mode): for every rank above 2, every valid axis, positive or negative, and every position,
`permute_dimensions` does not raise and moves the axis of the constants to the position. -/
theorem C56_constants {α : Type*} (n : ℕ) (hn : 2 < n) (axis : ℤ) (k : ℕ) (hk : normAxis n axis = some k) (p : ℕ) (hp : p < n)
    (c w : NdArr α) : ∃ c' w', permuteDimensions n axis p false c w = .ok (c', w') ∧ MovesAxis n k p c c' := by
  obtain ⟨L, h1, h2⟩ := transpose_moves n axis k p hk hp c
  obtain ⟨k', hk'⟩ : ∃ k', normAxis (n + 1) axis = some k' := by
    unfold normAxis at hk ⊢
    push_cast
    split at hk
    · rw [if_pos (by omega)]; exact ⟨_, rfl⟩
    · split at hk
      · rw [if_neg (by omega), if_pos (by omega)]; exact ⟨_, rfl⟩
      · simp at hk
  obtain ⟨Lw, h3, _⟩ := transpose_moves (n + 1) axis k' (p + 1) hk' (by omega) w
  push_cast at h3
  refine ⟨transposeArr n L c, transposeArr (n + 1) Lw w, ?_, h2⟩
  simp [permuteDimensions, h1, h3, not_le.2 hn]

/-- C56, weights, for negative axes: constants and weights are moved together, the axes of the weights being shifted by one.  Missing:
nonnegative axes, where it is false (`C56_positive_axis_refuted`). -/
theorem C56_negative_axis_partial {α : Type*} (n : ℕ) (hn : 2 < n) (axis : ℤ) (ha : axis < 0) (k : ℕ) (hk : normAxis n axis = some k)
    (p : ℕ) (hp : p < n) (c w : NdArr α) : ∃ c' w', permuteDimensions n axis p false c w = .ok (c', w') ∧ MovesAxis n k p c c' ∧
      MovesAxis (n + 1) (k + 1) (p + 1) w w' := by
  obtain ⟨L, h1, h2⟩ := transpose_moves n axis k p hk hp c
  have hk' : normAxis (n + 1) axis = some (k + 1) := by
    unfold normAxis at hk ⊢
    push_cast
    rw [if_neg (by omega)] at hk ⊢
    split at hk
    · rw [if_pos (by omega)]
      simp only [Option.some.injEq] at hk ⊢
      omega
    · simp at hk
  obtain ⟨Lw, h3, h4⟩ := transpose_moves (n + 1) axis (k + 1) (p + 1) hk' (by omega) w
  push_cast at h3
  refine ⟨transposeArr n L c, transposeArr (n + 1) Lw w, ?_, h2, h4⟩
  simp [permuteDimensions, h1, h3, not_le.2 hn]

/-- C56 is false for every rank above 2, every positive axis and every position: the weights returned are those with another axis moved
(axis `axis` of the weights, which is the axis before the right one; for `axis = 1`, that of the model input). -/
theorem C56_positive_axis_refuted (n : ℕ) (hn : 2 < n) (k : ℕ) (hk : k < n) (p : ℕ) (hp : p < n) (c : NdArr ℕ) :
    ∃ w c' w' : NdArr ℕ, permuteDimensions n k p false c w = .ok (c', w') ∧ MovesAxis (n + 1) k (p + 1) w w' ∧
      ¬ MovesAxis (n + 1) (k + 1) (p + 1) w w' := by
  let w : NdArr ℕ := fun idx => idx.getD (k + 1) 0
  have hkn : normAxis n (k : ℤ) = some k := by simp [normAxis, hk]
  have hkn' : normAxis (n + 1) (k : ℤ) = some k := by simp [normAxis]; omega
  obtain ⟨L, h1, h2⟩ := transpose_moves n k k p hkn hp c
  obtain ⟨Lw, h3, h4⟩ := transpose_moves (n + 1) k k (p + 1) hkn' (by omega) w
  push_cast at h3
  refine ⟨w, transposeArr n L c, transposeArr (n + 1) Lw w, ?_, h4, fun h5 => ?_⟩
  · simp [permuteDimensions, h1, h3, not_le.2 hn]
  · have e1 := h4 (List.replicate n 0) 1 (by simp)
    have e2 := h5 (List.replicate n 0) 1 (by simp)
    rw [e1] at e2
    have l1 : ∀ i, i ≤ n → ((List.replicate n 0).insertIdx i 1).length = n + 1 := fun i hi => by
      rw [List.length_insertIdx_of_le_length (by simpa)]; simp
    have a1 : w ((List.replicate n 0).insertIdx k 1) = 0 := by
      show List.getD _ _ _ = _
      rw [List.getD_eq_getElem _ _ (by rw [l1 k (by omega)]; omega), List.getElem_insertIdx_of_gt (by omega)]
      simp
    have a2 : w ((List.replicate n 0).insertIdx (k + 1) 1) = 1 := by
      show List.getD _ _ _ = _
      rw [List.getD_eq_getElem _ _ (by rw [l1 (k + 1) (by omega)]; omega), List.getElem_insertIdx_self]
    omega

theorem moveIndex_neg (n q : ℕ) (axis : ℤ) (k : ℕ) (hk : normAxis n axis = some k) (h1 : 1 ≤ q) (hq : q < n) :
    moveIndex n axis (-(q : ℤ)) = moveIndex n axis ((n - 1 - q : ℕ) : ℤ) := by
  have hkn : k < n := by
    unfold normAxis at hk
    split at hk
    · simp at hk; omega
    · split at hk
      · simp at hk; omega
      · simp at hk
  have hlen : (((List.range n).map Int.ofNat).eraseIdx k).length = n - 1 := by
    rw [List.length_eraseIdx_of_lt (by simpa)]; simp
  have : npDelete ((List.range n).map Int.ofNat) axis = .ok (((List.range n).map Int.ofNat).eraseIdx k) := by simp [npDelete, hk]
  unfold moveIndex
  rw [this]
  simp only [npInsert, hlen]
  rw [if_neg (by omega), if_pos (by omega), if_pos (by omega)]
  congr 2
  omega

/-- C56: an axis that does not exist raises `IndexError`. -/
theorem C56_axis_out_of_range {α : Type*} (n : ℕ) (hn : 2 < n) (axis pos : ℤ) (dc : Bool) (h : (n : ℤ) ≤ axis ∨ axis < -(n : ℤ))
    (c w : NdArr α) : permuteDimensions n axis pos dc c w = .error .indexError := by
  have e : normAxis n axis = none := by
    unfold normAxis
    rw [if_neg (by omega), if_neg (by omega)]
  simp [permuteDimensions, moveIndex, npDelete, e, show ¬ n ≤ 2 by omega]

/-- C56: axis 3 of a tensor with three axes. -/
example (c w : NdArr ℚ) : permuteDimensions 3 3 1 false c w = .error .indexError :=
  C56_axis_out_of_range 3 (by norm_num) 3 1 false (by norm_num) c w

/-- C56 is false for the position `-1`, which names the last axis everywhere else: the axis of the constants becomes the last but one, and
the axis of the weights becomes the first, before the batch axis. -/
theorem C56_negative_position_refuted {α : Type*} (n : ℕ) (hn : 2 < n) (axis : ℤ) (ha : axis < 0) (k : ℕ) (hk : normAxis n axis = some k)
    (c w : NdArr α) : ∃ c' w', permuteDimensions n axis (-1) false c w = .ok (c', w') ∧ MovesAxis n k (n - 2) c c' ∧
      MovesAxis (n + 1) (k + 1) 0 w w' := by
  obtain ⟨L, h1, h2⟩ := transpose_moves n axis k (n - 2) hk (by omega) c
  have hk' : normAxis (n + 1) axis = some (k + 1) := by
    unfold normAxis at hk ⊢
    push_cast
    rw [if_neg (by omega)] at hk ⊢
    split at hk
    · rw [if_pos (by omega)]
      simp only [Option.some.injEq] at hk ⊢
      omega
    · simp at hk
  obtain ⟨Lw, h3, h4⟩ := transpose_moves (n + 1) axis (k + 1) 0 hk' (by omega) w
  have h5 := moveIndex_neg n 1 axis k hk le_rfl (by omega)
  rw [show n - 1 - 1 = n - 2 by omega, h1] at h5
  refine ⟨transposeArr n L c, transposeArr (n + 1) Lw w, ?_, h2, h4⟩
  simp only [Nat.cast_one] at h5
  simp only [Nat.cast_zero] at h3
  simp [permuteDimensions, h5, h3, not_le.2 hn]

/-- C56: tensors of rank at most 2 are returned as they are, even with `dc_decomp`; otherwise `dc_decomp` raises. -/
theorem C56_low_rank_and_dc {α : Type*} (n : ℕ) (axis : ℤ) (p : ℕ) (c w : NdArr α) :
    (n ≤ 2 → ∀ dc, permuteDimensions n axis p dc c w = .ok (c, w)) ∧
    (2 < n → ∀ k, normAxis n axis = some k → p < n → permuteDimensions n axis p true c w = .error .notImplemented) := by
  refine ⟨fun h dc => by simp [permuteDimensions, h], fun h k hk hp => ?_⟩
  obtain ⟨c', w', h', _⟩ := C56_constants n h axis k hk p hp c w
  simp only [permuteDimensions, not_le.2 h, if_false] at h' ⊢
  split at h' <;> simp_all

/-- Non-vacuity of C56: rank 3, `axis = -1`, default position 1: the weights of shape `(batch, n, a, b)` become `(batch, n, b, a)`. -/
example : (permuteDimensions 3 (-1) 1 false (fun i : List ℕ => i) (fun i => i)).toOption.map (fun r => (r.1 [0, 7, 5], r.2 [0, 9, 7, 5]))
    = some ([0, 5, 7], [0, 9, 5, 7]) := by decide +kernel

/-- The failure, rank 3, `axis = 1`, default position 1: the constants are unchanged, but the weights have their axes 1 and 2
exchanged. -/
example : (permuteDimensions 3 1 1 false (fun i : List ℕ => i) (fun i => i)).toOption.map (fun r => (r.1 [0, 7, 5], r.2 [0, 9, 7, 5]))
    = some ([0, 7, 5], [0, 7, 9, 5]) := by decide +kernel

/-! ### C83 -/

/-- Specification: the weights of one model input `i`, as a tensor like the constants. -/
def slice {α : Type*} (i : ℕ) (w : NdArr α) : NdArr α := fun idx => w (idx.take 1 ++ i :: idx.drop 1)

private theorem take_insert (idx : List ℕ) (hi : idx ≠ []) (i k j : ℕ) (hk : 1 ≤ k) :
    (idx.take 1 ++ i :: idx.drop 1).insertIdx (k + 1) j = (idx.insertIdx k j).take 1 ++ i :: (idx.insertIdx k j).drop 1 := by
  cases idx with
  | nil => exact absurd rfl hi
  | cons b t =>
    obtain ⟨k, rfl⟩ := Nat.exists_eq_add_of_le hk
    rw [show 1 + k = k + 1 by ring]
    simp

private theorem take_erase (idx : List ℕ) (i k : ℕ) (hk : 1 ≤ k) :
    (idx.take 1 ++ i :: idx.drop 1).eraseIdx (k + 1) = (idx.eraseIdx k).take 1 ++ i :: (idx.eraseIdx k).drop 1 ∨ idx = [] := by
  cases idx with
  | nil => right; rfl
  | cons b t =>
    left
    obtain ⟨k, rfl⟩ := Nat.exists_eq_add_of_le hk
    rw [show 1 + k = k + 1 by ring]
    simp

private theorem normAxis_axisW (n : ℕ) (a : ℤ) (h : a = -1 ∨ 0 ≤ a) (k : ℕ) (hk : normAxis n a = some k) :
    normAxis (n + 1) (axisW a) = some (k + 1) := by
  unfold normAxis at hk
  unfold axisW normAxis
  push_cast
  rcases h with rfl | h
  · simp at hk
    simp
    omega
  · rw [if_neg (by omega : ¬ a = -1)]
    split at hk
    · rw [if_pos (by omega)]
      simp only [Option.some.injEq] at hk ⊢
      omega
    · split at hk
      · omega
      · simp at hk

/-- C83, `sum`: for the last axis (`-1`) and for positive axes, the weights of every model input are summed along the axis of the
constants. -/
theorem C83_sum_partial {α : Type*} [AddCommMonoid α] (n size : ℕ) (a : ℤ) (h : a = -1 ∨ 1 ≤ a) (ha : 2 ≤ n) (k : ℕ)
    (hk : normAxis n a = some k) (w : NdArr α) (i : ℕ) :
    ∃ r s, sumAxis (n + 1) size (axisW a) w = .ok r ∧ sumAxis n size a (slice i w) = .ok s ∧
      ∀ idx, idx.length = n - 1 → slice i r idx = s idx := by
  have hw := normAxis_axisW n a (by omega) k hk
  have hk1 : 1 ≤ k := by
    unfold normAxis at hk
    split at hk
    · simp at hk; omega
    · split at hk
      · simp at hk; omega
      · simp at hk
  refine ⟨_, _, by simp only [sumAxis, hw]; rfl, by simp only [sumAxis, hk]; rfl, fun idx hi => ?_⟩
  have hne : idx ≠ [] := by rintro rfl; simp at hi; omega
  simp only [slice, take_insert idx hne i k _ hk1]

/-- C83, `expand_dims` and `broadcast`: the same. -/
theorem C83_expand_dims_partial {α : Type*} (n : ℕ) (a : ℤ) (h : a = -1 ∨ 1 ≤ a) (ha : 1 ≤ n) (k : ℕ)
    (hk : normAxis (n + 1) a = some k) (w : NdArr α) (i : ℕ) :
    ∃ r s, expandDims (n + 1) (axisW a) w = .ok r ∧ expandDims n a (slice i w) = .ok s ∧
      ∀ idx, idx.length = n + 1 → slice i r idx = s idx := by
  have hw := normAxis_axisW (n + 1) a (by omega) k hk
  have hk1 : 1 ≤ k := by
    unfold normAxis at hk
    split at hk
    · simp at hk; omega
    · split at hk
      · simp at hk; omega
      · simp at hk
  refine ⟨_, _, by simp only [expandDims, hw]; rfl, by simp only [expandDims, hk]; rfl, fun idx hi => ?_⟩
  simp only [slice]
  rcases take_erase idx i k hk1 with h | h
  · rw [h]
  · subst h; simp at hi

/-- C83, `DecomonConcatenate`: the same. -/
theorem C83_concatenate_partial {α : Type*} (n size : ℕ) (a : ℤ) (h : a = -1 ∨ 1 ≤ a) (ha : 2 ≤ n) (k : ℕ)
    (hk : normAxis n a = some k) (w0 w1 : NdArr α) (i : ℕ) :
    ∃ r s, concatAxis (n + 1) size (axisW a) w0 w1 = .ok r ∧ concatAxis n size a (slice i w0) (slice i w1) = .ok s ∧
      ∀ idx, idx.length = n → slice i r idx = s idx := by
  have hw := normAxis_axisW n a (by omega) k hk
  have hk1 : 1 ≤ k := by
    unfold normAxis at hk
    split at hk
    · simp at hk; omega
    · split at hk
      · simp at hk; omega
      · simp at hk
  refine ⟨_, _, by simp only [concatAxis, hw]; rfl, by simp only [concatAxis, hk]; rfl, fun idx hi => ?_⟩
  obtain ⟨k, rfl⟩ := Nat.exists_eq_add_of_le hk1
  rw [show 1 + k = k + 1 by ring]
  cases idx with
  | nil => simp at hi; omega
  | cons b t => simp [slice]

/-- C83, what the concatenation is: along the axis `k` of the constants, the `size` entries of the first tensor and then those of the
second one. -/
theorem C83_concatenate_values {α : Type*} (n size : ℕ) (a : ℤ) (k : ℕ) (hk : normAxis n a = some k) (t0 t1 : NdArr α) :
    ∃ s, concatAxis n size a t0 t1 = .ok s ∧ ∀ rest : List ℕ, rest.length = n - 1 →
      (∀ j < size, s (rest.insertIdx k j) = t0 (rest.insertIdx k j)) ∧
      ∀ j, s (rest.insertIdx k (size + j)) = t1 (rest.insertIdx k j) := by
  have hkn : k < n := by
    unfold normAxis at hk
    split at hk
    · simp at hk; omega
    · split at hk
      · simp at hk; omega
      · simp at hk
  refine ⟨_, by simp only [concatAxis, hk]; rfl, fun rest hr => ?_⟩
  have hl : ∀ j, k < (rest.insertIdx k j).length := fun j => by
    rw [List.length_insertIdx_of_le_length (by omega)]; omega
  have hg : ∀ j, (rest.insertIdx k j).getD k 0 = j := fun j => by
    rw [List.getD_eq_getElem _ _ (hl j), List.getElem_insertIdx_self]
  refine ⟨fun j hj => ?_, fun j => ?_⟩
  · rw [hg, if_pos hj]
  · rw [hg, if_neg (by omega), Nat.add_sub_cancel_left]
    congr 1
    apply List.ext_getElem
    · rw [List.length_set, List.length_insertIdx_of_le_length (by omega), List.length_insertIdx_of_le_length (by omega)]
    · intro i h1 h2
      rw [List.getElem_set]
      split
      · rename_i e; subst e; rw [List.getElem_insertIdx_self]
      · rename_i e
        rcases lt_or_gt_of_ne e with e | e
        · rw [List.getElem_insertIdx_of_gt (by omega), List.getElem_insertIdx_of_gt (by omega)]
        · rw [List.getElem_insertIdx_of_lt (by omega), List.getElem_insertIdx_of_lt (by omega)]

/-- C83 is false for every other negative axis: the weights are processed along the axis after the right one. -/
theorem C83_negative_axis_refuted (n : ℕ) (a : ℤ) (h : a ≤ -2) (k : ℕ) (hk : normAxis n a = some k) :
    normAxis (n + 1) (axisW a) = some (k + 2) := by
  unfold normAxis at hk
  unfold axisW normAxis
  push_cast
  rw [if_neg (by omega : ¬ a = -1), if_neg (by omega)]
  rw [if_neg (by omega)] at hk
  split at hk
  · rw [if_pos (by omega)]
    simp only [Option.some.injEq] at hk ⊢
    omega
  · simp at hk

/-- C83 is false: `sum` along axis `-2` of a layer of shape `(2, 2)` (rank 3 with the batch): the weights are summed along the last
axis, so that `Σ` of the entries differs from the sum of the constants: here the weights of model input 0 are those of the map to
`[[x, 0], [x, 0]]`, whose sum along axis `-2` is `[2x, 0]`, and the code returns `[x, x]`. -/
theorem C83_sum_refuted : ∃ (w r s : NdArr ℕ), sumAxis 4 2 (axisW (-2)) w = .ok r ∧ sumAxis 3 2 (-2) (slice 0 w) = .ok s ∧
    (slice 0 r [0, 0], slice 0 r [0, 1]) = (1, 1) ∧ (s [0, 0], s [0, 1]) = (2, 0) := by
  refine ⟨fun idx => if idx.getD 3 0 = 0 then 1 else 0, _, _, rfl, rfl, ?_, ?_⟩ <;> decide +kernel

/-- Non-vacuity of C83: `sum` along axis `1` of the same layer. -/
example : ∃ (r s : NdArr ℕ), sumAxis 4 2 (axisW 1) (fun idx => if idx.getD 3 0 = 0 then 1 else 0) = .ok r ∧
    sumAxis 3 2 1 (slice 0 fun idx => if idx.getD 3 0 = 0 then 1 else 0) = .ok s ∧
    (slice 0 r [0, 0], slice 0 r [0, 1]) = (2, 0) ∧ (s [0, 0], s [0, 1]) = (2, 0) := by
  refine ⟨_, _, rfl, rfl, ?_, ?_⟩ <;> decide +kernel

end Decomon
