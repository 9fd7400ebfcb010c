import Verif.Model.Convert
import Mathlib.Tactic.NormNum

/-!
C93: `reset_layer` copies the named weights, and only these, or changes nothing.
-/

namespace Decomon

section C93
variable {V S : Type} [DecidableEq S]

theorem getWeightIndexFromName_ok {L : KLayer} {name : String} {i : ℕ} (h : getWeightIndexFromName L name = .ok i) :
    ∃ v, L.attr name = some (some v) ∧ v ∈ L.weights ∧ i = L.weights.idxOf v := by
  unfold getWeightIndexFromName at h
  split at h
  · simp at h
  · rename_i w hw
    unfold getWeightIndex at h
    split at h
    · simp at h
    · rename_i v
      split at h
      · rename_i hv
        exact ⟨v, hw, hv, by simpa using h.symm⟩
      · simp at h

theorem getWeightIndexFromName_of {L : KLayer} {name : String} {v : ℕ} (h : L.attr name = some (some v)) (hv : v ∈ L.weights) :
    getWeightIndexFromName L name = .ok (L.weights.idxOf v) := by
  simp [getWeightIndexFromName, h, getWeightIndex, hv]

/-- An error of the loop is an `AttributeError` or an `IndexError`; without error every name is tracked in both layers. -/
theorem resetParams_ok {new orig : KLayer} {op : List V} {names : List String} {np np' : List V}
    (h : resetParams new orig op names np = .ok np') :
    np'.length = np.length ∧
      (∀ i, (∀ name ∈ names, getWeightIndexFromName new name ≠ .ok i) → np'[i]? = np[i]?) ∧
      (∀ name ∈ names, ∃ i o, getWeightIndexFromName new name = .ok i ∧ getWeightIndexFromName orig name = .ok o) := by
  induction names generalizing np with
  | nil =>
    simp only [resetParams, Except.ok.injEq] at h
    subst h
    simp
  | cons a t ih =>
    unfold resetParams at h
    split at h
    · simp at h
    · rename_i o ho
      split at h
      · simp at h
      · rename_i v hv
        split at h
        · simp at h
        · rename_i i hi
          obtain ⟨h1, h2, h3⟩ := ih h
          refine ⟨by simpa using h1, ?_, ?_⟩
          · intro j hj
            have hne : i ≠ j := fun e => hj a (by simp) (e ▸ hi)
            rw [h2 j fun n hn => hj n (by simp [hn]), List.getElem?_set_ne hne]
          · intro n hn
            rcases List.mem_cons.mp hn with rfl | hn
            · exact ⟨i, o, hi, ho⟩
            · exact h3 n hn

/-- The value written at the index of a name. -/
theorem resetParams_copy {new orig : KLayer} {op : List V} {names : List String} {np np' : List V}
    (h : resetParams new orig op names np = .ok np')
    (hcons : ∀ a ∈ names, ∀ b ∈ names, ∀ i, getWeightIndexFromName new a = .ok i → getWeightIndexFromName new b = .ok i →
      getWeightIndexFromName orig a = getWeightIndexFromName orig b) :
    ∀ name ∈ names, ∀ i o, getWeightIndexFromName new name = .ok i → getWeightIndexFromName orig name = .ok o → i < np.length →
      np'[i]? = op[o]? := by
  induction names generalizing np with
  | nil => simp
  | cons a t ih =>
    intro name hn i o hi ho hlt
    unfold resetParams at h
    split at h
    · simp at h
    · rename_i oa hoa
      split at h
      · simp at h
      · rename_i v hv
        split at h
        · simp at h
        · rename_i ia hia
          by_cases hlater : ∃ b ∈ t, getWeightIndexFromName new b = .ok i
          · obtain ⟨b, hb, hbi⟩ := hlater
            have hbo : getWeightIndexFromName orig b = .ok o := by
              rw [← ho]
              exact hcons b (by simp [hb]) name hn i hbi hi
            exact ih h (fun x hx y hy => hcons x (by simp [hx]) y (by simp [hy])) b hb i o hbi hbo (by simpa using hlt)
          · push Not at hlater
            rcases List.mem_cons.mp hn with rfl | hn
            · have e1 : ia = i := by rw [hia] at hi; simpa using hi
              have e2 : oa = o := by rw [hoa] at ho; simpa using ho
              subst e1 e2
              rw [(resetParams_ok h).2.1 ia hlater, List.getElem?_set_self hlt, hv]
            · exact absurd hi (hlater name hn)

theorem setWeights_frame (shape : V → S) (ws : List ℕ) (xs : List V) (mem : ℕ → V) (v : ℕ)
    (h : ∀ i : ℕ, ws[i]? = some v → xs[i]? = some (mem v)) : (setWeights shape ws xs mem).2 v = mem v := by
  induction ws generalizing xs mem with
  | nil => simp [setWeights]
  | cons w t ih =>
    cases xs with
    | nil => simp [setWeights]
    | cons x xs =>
      unfold setWeights
      split
      · have hm : Function.update mem w x v = mem v := by
          by_cases e : v = w
          · subst e
            have := h 0 (by simp)
            simp only [List.getElem?_cons_zero, Option.some.injEq] at this
            simp [this]
          · simp [Function.update_of_ne e]
        rw [ih xs (Function.update mem w x) fun i hi => by rw [hm]; simpa using h (i + 1) (by simpa using hi), hm]
      · rfl

theorem setWeights_ok (shape : V → S) (ws : List ℕ) (xs : List V) (mem : ℕ → V) (hnd : ws.Nodup)
    (h : (setWeights shape ws xs mem).1 = .ok ()) :
    ∀ (i : ℕ) (v : ℕ) (x : V), ws[i]? = some v → xs[i]? = some x → (setWeights shape ws xs mem).2 v = x := by
  induction ws generalizing xs mem with
  | nil => simp
  | cons w t ih =>
    cases xs with
    | nil => simp
    | cons y xs =>
      intro i v x hi hx
      obtain ⟨hw, hnd⟩ := List.nodup_cons.mp hnd
      unfold setWeights at h ⊢
      split at h
      · rename_i hs
        rw [if_pos hs]
        cases i with
        | zero =>
          simp only [List.getElem?_cons_zero, Option.some.injEq] at hi hx
          subst hi hx
          rw [setWeights_frame]
          · simp
          · intro j hj
            exact absurd (List.mem_of_getElem? hj) hw
        | succ i => exact ih xs _ hnd h i v x (by simpa using hi) (by simpa using hx)
      · simp at h

theorem setWeights_fits (shape : V → S) (ws : List ℕ) (xs : List V) (mem : ℕ → V) (hnd : ws.Nodup)
    (h : ∀ (i : ℕ) (v : ℕ) (x : V), ws[i]? = some v → xs[i]? = some x → shape (mem v) = shape x) : (setWeights shape ws xs mem).1 = .ok () := by
  induction ws generalizing xs mem with
  | nil => simp [setWeights]
  | cons w t ih =>
    cases xs with
    | nil => simp [setWeights]
    | cons y xs =>
      obtain ⟨hw, hnd⟩ := List.nodup_cons.mp hnd
      unfold setWeights
      rw [if_pos (h 0 w y (by simp) (by simp))]
      refine ih xs _ hnd fun i v x hi hx => ?_
      have hne : v ≠ w := fun e => hw (e ▸ List.mem_of_getElem? hi)
      rw [Function.update_of_ne hne]
      exact h (i + 1) v x (by simpa using hi) (by simpa using hx)

theorem idx_getElem {ws : List ℕ} {v : ℕ} (h : v ∈ ws) : ws[ws.idxOf v]? = some v := by
  rw [List.getElem?_eq_getElem (List.idxOf_lt_length_iff.mpr h), List.getElem_idxOf]

/-- C93: after `reset_layer` every named weight of the new layer has the value that the weight of that name had in the original layer.
Hypotheses: Keras lists a variable once, and two names of one variable of the new layer are names of one variable of the original. -/
theorem C93_copies (shape : V → S) (new orig : KLayer) (names : List String) (mem : ℕ → V) (hnd : new.weights.Nodup)
    (hcons : ∀ a ∈ names, ∀ b ∈ names, new.attr a = new.attr b → orig.attr a = orig.attr b)
    (h : (resetLayer shape new orig names mem).1 = .ok ()) (name : String) (hn : name ∈ names) :
    ∃ v o, new.attr name = some (some v) ∧ orig.attr name = some (some o) ∧ (resetLayer shape new orig names mem).2 v = mem o := by
  unfold resetLayer at h ⊢
  split at h
  · simp at h
  · rename_i ho
    split at h
    · simp at h
    · rename_i hb
      rw [if_neg ho, if_neg hb]
      split at h
      · simp at h
      · rename_i params hp
        obtain ⟨hl, _, hex⟩ := resetParams_ok hp
        obtain ⟨i, o, hi, hoo⟩ := hex name hn
        obtain ⟨v, hv, hvm, rfl⟩ := getWeightIndexFromName_ok hi
        obtain ⟨w, hw, hwm, rfl⟩ := getWeightIndexFromName_ok hoo
        refine ⟨v, w, hv, hw, ?_⟩
        have hc := resetParams_copy hp (fun a ha b hb' j hja hjb => by
          obtain ⟨va, hva, hma, ea⟩ := getWeightIndexFromName_ok hja
          obtain ⟨vb, hvb, hmb, eb⟩ := getWeightIndexFromName_ok hjb
          have hvv : va = vb := List.idxOf_inj hma |>.mp (ea.symm.trans eb)
          unfold getWeightIndexFromName
          rw [hcons a ha b hb' (by rw [hva, hvb, hvv])]) name hn _ _ hi hoo
          (by simpa using List.idxOf_lt_length_iff.mpr hvm)
        refine setWeights_ok shape _ _ _ hnd h _ v (mem w) (idx_getElem hvm) ?_
        rw [hc, List.getElem?_map, idx_getElem hwm]
        rfl

/-- C93: with or without error, a variable that is not one of the named weights of the new layer is unchanged. -/
theorem C93_frame (shape : V → S) (new orig : KLayer) (names : List String) (mem : ℕ → V) (v : ℕ)
    (hv : ∀ name ∈ names, new.attr name ≠ some (some v)) : (resetLayer shape new orig names mem).2 v = mem v := by
  unfold resetLayer
  split
  · rfl
  · split
    · rfl
    · split
      · rfl
      · rename_i params hp
        refine setWeights_frame _ _ _ _ _ fun i hi => ?_
        by_cases hex : ∃ name ∈ names, getWeightIndexFromName new name = .ok i
        · obtain ⟨name, hn, hni⟩ := hex
          obtain ⟨w, hw, hwm, rfl⟩ := getWeightIndexFromName_ok hni
          rw [idx_getElem hwm] at hi
          exact absurd (by rw [hw]; simpa using hi) (hv name hn)
        · push Not at hex
          rw [(resetParams_ok hp).2.1 i hex, List.getElem?_map, hi]
          rfl

/-- C93: `reset_layer` raises `ValueError` without changing anything when a layer is not built. -/
theorem C93_unbuilt (shape : V → S) (new orig : KLayer) (names : List String) (mem : ℕ → V)
    (h : orig.built = false ∨ new.built = false) : resetLayer shape new orig names mem = (.error .valueError, mem) := by
  unfold resetLayer
  rcases h with h | h
  · rw [if_pos h]
  · split
    · rfl
    · rfl

/-- C93, atomicity: if the named weights have the same shapes, an error leaves every variable unchanged.  Missing: weights with different
shapes, refuted below. -/
theorem C93_atomic_partial (shape : V → S) (new orig : KLayer) (names : List String) (mem : ℕ → V) (hnd : new.weights.Nodup)
    (hcons : ∀ a ∈ names, ∀ b ∈ names, new.attr a = new.attr b → orig.attr a = orig.attr b)
    (hshape : ∀ name ∈ names, ∀ v o, new.attr name = some (some v) → orig.attr name = some (some o) → shape (mem v) = shape (mem o))
    (e : PyErr) (h : (resetLayer shape new orig names mem).1 = .error e) : (resetLayer shape new orig names mem).2 = mem := by
  unfold resetLayer at h ⊢
  split
  · rfl
  · rename_i ho
    split
    · rfl
    · rename_i hb
      rw [if_neg ho, if_neg hb] at h
      split
      · rfl
      · rename_i params hp
        rw [hp] at h
        refine absurd h ?_
        simp only
        rw [setWeights_fits _ _ _ _ hnd]
        · simp
        · intro i v x hi hx
          by_cases hex : ∃ name ∈ names, getWeightIndexFromName new name = .ok i
          · obtain ⟨name, hn, hni⟩ := hex
            obtain ⟨i', o, hi', hoo⟩ := (resetParams_ok hp).2.2 name hn
            have hc := resetParams_copy hp (fun a ha b hb' j hja hjb => by
              obtain ⟨va, hva, hma, ea⟩ := getWeightIndexFromName_ok hja
              obtain ⟨vb, hvb, hmb, eb⟩ := getWeightIndexFromName_ok hjb
              have hvv : va = vb := List.idxOf_inj hma |>.mp (ea.symm.trans eb)
              unfold getWeightIndexFromName
              rw [hcons a ha b hb' (by rw [hva, hvb, hvv])]) name hn i o hni hoo
              (by have := (List.getElem?_eq_some_iff.mp hi).1; simpa using this)
            obtain ⟨w, hw, hwm, rfl⟩ := getWeightIndexFromName_ok hni
            obtain ⟨u, hu, hum, rfl⟩ := getWeightIndexFromName_ok hoo
            rw [idx_getElem hwm] at hi
            rw [hc, List.getElem?_map, idx_getElem hum] at hx
            simp only [Option.map_some, Option.some.injEq] at hi hx
            rw [← hx, ← hi]
            exact hshape name hn w u hw hu
          · push Not at hex
            rw [(resetParams_ok hp).2.1 i hex, List.getElem?_map, hi] at hx
            simp only [Option.map_some, Option.some.injEq] at hx
            rw [hx]

/-- C93: when it succeeds.  Both layers are built and every name is an attribute tracked by both, with the same shape. -/
theorem C93_succeeds (shape : V → S) (new orig : KLayer) (names : List String) (mem : ℕ → V) (hnd : new.weights.Nodup)
    (hcons : ∀ a ∈ names, ∀ b ∈ names, new.attr a = new.attr b → orig.attr a = orig.attr b)
    (hb : new.built = true) (ho : orig.built = true)
    (hn : ∀ name ∈ names, ∃ v o, new.attr name = some (some v) ∧ v ∈ new.weights ∧ orig.attr name = some (some o) ∧ o ∈ orig.weights ∧
      shape (mem v) = shape (mem o)) : (resetLayer shape new orig names mem).1 = .ok () := by
  have hloop : ∀ (l : List String) (np : List V), (∀ name ∈ l, name ∈ names) →
      ∃ np', resetParams new orig (orig.weights.map mem) l np = .ok np' := by
    intro l
    induction l with
    | nil => exact fun np _ => ⟨np, rfl⟩
    | cons a t ih =>
      intro np hl
      obtain ⟨v, o, hv, hvm, hoa, hom, _⟩ := hn a (hl a (by simp))
      unfold resetParams
      rw [getWeightIndexFromName_of hoa hom]
      simp only [List.getElem?_map, idx_getElem hom, Option.map_some]
      rw [getWeightIndexFromName_of hv hvm]
      exact ih _ fun n h => hl n (by simp [h])
  cases hr : (resetLayer shape new orig names mem).1 with
  | ok u => rfl
  | error e =>
    exfalso
    obtain ⟨params, hp⟩ := hloop names (new.weights.map mem) fun _ h => h
    unfold resetLayer at hr
    rw [if_neg (by simp [ho]), if_neg (by simp [hb]), hp] at hr
    simp only at hr
    rw [setWeights_fits _ _ _ _ hnd] at hr
    · simp at hr
    · intro i v x hi hx
      by_cases hex : ∃ name ∈ names, getWeightIndexFromName new name = .ok i
      · obtain ⟨name, hnn, hni⟩ := hex
        obtain ⟨i', o, hi', hoo⟩ := (resetParams_ok hp).2.2 name hnn
        have hc := resetParams_copy hp (fun a ha b hb' j hja hjb => by
          obtain ⟨va, hva, hma, ea⟩ := getWeightIndexFromName_ok hja
          obtain ⟨vb, hvb, hmb, eb⟩ := getWeightIndexFromName_ok hjb
          have hvv : va = vb := List.idxOf_inj hma |>.mp (ea.symm.trans eb)
          unfold getWeightIndexFromName
          rw [hcons a ha b hb' (by rw [hva, hvb, hvv])]) name hnn i o hni hoo
          (by have := (List.getElem?_eq_some_iff.mp hi).1; simpa using this)
        obtain ⟨w, hw, hwm, rfl⟩ := getWeightIndexFromName_ok hni
        obtain ⟨u, hu, hum, rfl⟩ := getWeightIndexFromName_ok hoo
        obtain ⟨v', o', hv', _, ho', _, hs⟩ := hn name hnn
        rw [idx_getElem hwm] at hi
        rw [hc, List.getElem?_map, idx_getElem hum] at hx
        simp only [Option.map_some, Option.some.injEq] at hi hx
        rw [hw] at hv'
        rw [hu] at ho'
        simp only [Option.some.injEq] at hv' ho'
        rw [← hx, ← hi, hv', ho']
        exact hs
      · push Not at hex
        rw [(resetParams_ok hp).2.1 i hex, List.getElem?_map, hi] at hx
        simp only [Option.map_some, Option.some.injEq] at hx
        rw [hx]

/-- The attributes of a `Dense` layer with its kernel in cell `k` and its bias in cell `b`. -/
def denseAttr (k b : ℕ) (name : String) : Option (Option ℕ) :=
  if name = "kernel" then some (some k) else if name = "bias" then some (some b) else none

/-- The memory of the examples; the shape of a value is its length. -/
def resetMem (l : List (List ℚ)) (i : ℕ) : List ℚ := l.getD i []

/-- C93: the update is not atomic.  The kernels have the same shape, the biases do not: `ValueError`, and the kernel is replaced. -/
theorem C93_shape_mismatch_refuted :
    (resetLayer List.length ⟨true, denseAttr 0 1, [0, 1]⟩ ⟨true, denseAttr 2 3, [2, 3]⟩ ["kernel", "bias"]
        (resetMem [[1], [2], [5], [6, 7]])).1 = .error .valueError ∧
      (resetLayer List.length ⟨true, denseAttr 0 1, [0, 1]⟩ ⟨true, denseAttr 2 3, [2, 3]⟩ ["kernel", "bias"]
        (resetMem [[1], [2], [5], [6, 7]])).2 0 = [5] := by
  decide +kernel

/-- The theorems of C93 on two dense layers of equal shapes: the reset succeeds, copies the kernel and leaves the variables of the original. -/
example : (resetLayer List.length ⟨true, denseAttr 0 1, [1, 0]⟩ ⟨true, denseAttr 2 3, [2, 3]⟩ ["kernel", "bias"] (resetMem [[1], [2, 2], [5], [6, 7]])).1 = .ok () ∧
    (∃ v o, denseAttr 0 1 "kernel" = some (some v) ∧ denseAttr 2 3 "kernel" = some (some o) ∧
      (resetLayer List.length ⟨true, denseAttr 0 1, [1, 0]⟩ ⟨true, denseAttr 2 3, [2, 3]⟩ ["kernel", "bias"] (resetMem [[1], [2, 2], [5], [6, 7]])).2 v =
        resetMem [[1], [2, 2], [5], [6, 7]] o) ∧
    (resetLayer List.length ⟨true, denseAttr 0 1, [1, 0]⟩ ⟨true, denseAttr 2 3, [2, 3]⟩ ["kernel", "bias"] (resetMem [[1], [2, 2], [5], [6, 7]])).2 2 = [5] := by
  have hc : ∀ a ∈ ["kernel", "bias"], ∀ b ∈ ["kernel", "bias"], denseAttr 0 1 a = denseAttr 0 1 b → denseAttr 2 3 a = denseAttr 2 3 b := by decide
  have h := C93_succeeds List.length ⟨true, denseAttr 0 1, [1, 0]⟩ ⟨true, denseAttr 2 3, [2, 3]⟩ ["kernel", "bias"] (resetMem [[1], [2, 2], [5], [6, 7]]) (by decide) hc rfl rfl (by
    intro n hn
    rcases List.mem_cons.mp hn with rfl | hn
    · exact ⟨0, 2, by decide, by decide, by decide, by decide, rfl⟩
    · rw [List.mem_singleton.mp hn]
      exact ⟨1, 3, by decide, by decide, by decide, by decide, rfl⟩)
  exact ⟨h, C93_copies List.length _ _ _ _ (by decide) hc h "kernel" (by simp), C93_frame List.length _ _ _ _ 2 (by decide)⟩

/-- A name that the layers do not have: an error, and the memory is the one before. -/
example : (resetLayer List.length ⟨true, denseAttr 0 1, [0, 1]⟩ ⟨true, denseAttr 2 3, [2, 3]⟩ ["kernel", "gamma"] (resetMem [[1], [2], [5], [6]])).2 =
    resetMem [[1], [2], [5], [6]] :=
  C93_atomic_partial List.length ⟨true, denseAttr 0 1, [0, 1]⟩ ⟨true, denseAttr 2 3, [2, 3]⟩ ["kernel", "gamma"] _ (by decide) (by decide) (by
    intro n hn v o h1 h2
    rcases List.mem_cons.mp hn with rfl | hn
    · simp [denseAttr] at h1 h2
      subst h1 h2
      rfl
    · rw [List.mem_singleton.mp hn] at h1
      simp [denseAttr] at h1) .attributeError (by decide +kernel)

example (mem : ℕ → List ℚ) : resetLayer List.length ⟨true, denseAttr 0 1, [0, 1]⟩ ⟨false, denseAttr 2 3, []⟩ ["kernel"] mem = (.error .valueError, mem) :=
  C93_unbuilt _ _ _ _ _ (.inl rfl)

/-- Non-vacuity of C93: a kernel and a bias are copied, another order of the weights included. -/
example : (resetLayer List.length ⟨true, denseAttr 0 1, [1, 0]⟩ ⟨true, denseAttr 2 3, [2, 3]⟩ ["kernel", "bias"]
      (resetMem [[1], [2, 2], [5], [6, 7]])).1 = .ok () ∧
    (List.range 4).map (resetLayer List.length ⟨true, denseAttr 0 1, [1, 0]⟩ ⟨true, denseAttr 2 3, [2, 3]⟩ ["kernel", "bias"]
      (resetMem [[1], [2, 2], [5], [6, 7]])).2 = [[5], [6, 7], [5], [6, 7]] := by
  decide +kernel

/-- Non-vacuity of the atomicity: a missing attribute. -/
example : (resetLayer List.length ⟨true, denseAttr 0 1, [0, 1]⟩ ⟨true, denseAttr 2 3, [2, 3]⟩ ["kernel", "gamma"]
      (resetMem [[1], [2], [5], [6]])).1 = .error .attributeError ∧
    (resetLayer List.length ⟨true, denseAttr 0 1, [0, 1]⟩ ⟨true, denseAttr 2 3, [2, 3]⟩ ["kernel", "gamma"]
      (resetMem [[1], [2], [5], [6]])).2 0 = [1] := by
  decide +kernel

end C93

end Decomon
