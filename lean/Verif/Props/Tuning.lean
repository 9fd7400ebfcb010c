import Verif.Model.Tuning
import Verif.Props.Wrapper

/-! Properties C100 (tuning), C101 (`get_AB`) and C102 (target labels). -/

namespace Decomon

/-! ### C100: finetuning parameters -/

section Reset
variable {α : Type*} [One α]

/-- Specification: a forward activation that has finetuning parameters in use. -/
def TuneLayer.Tuned : TuneLayer α → Prop
  | .forwardAct ft m act _ => ft = true ∧ m ≠ .ibp ∧ act ≠ "linear"
  | _ => False

/-- C100, the meaning of the code when `Variable.value` is a method: no exception, every parameter of a tuned forward activation is one, with
its shape, and no other layer changes.  Missing with respect to the full claim: Keras 3 (`C100_reset_raises_refuted`), and backward
activations (`C100_reset_backward_refuted`). -/
theorem C100_reset_method_partial (ls : List (TuneLayer α)) :
    (modelReset true ls).2 = none ∧ List.Forall₂ (fun l l' : TuneLayer α =>
      (l.Tuned → List.Forall₂ (fun v v' : List α => v'.length = v.length ∧ ∀ x ∈ v', x = 1) l.alphas l'.alphas) ∧ (¬ l.Tuned → l' = l))
      ls (modelReset true ls).1 := by
  induction ls with
  | nil => exact ⟨rfl, List.Forall₂.nil⟩
  | cons l t ih =>
    have hl : ∃ l', l.reset true = .ok l' ∧
        (l.Tuned → List.Forall₂ (fun v v' : List α => v'.length = v.length ∧ ∀ x ∈ v', x = 1) l.alphas l'.alphas) ∧ (¬ l.Tuned → l' = l) := by
      cases l with
      | forwardAct ft m act a =>
        by_cases h : ft = true ∧ m ≠ .ibp ∧ act ≠ "linear"
        · refine ⟨_, by simp only [TuneLayer.reset, if_pos h]; rfl, fun _ => ?_, fun h' => absurd h h'⟩
          simp only [TuneLayer.alphas]
          rw [List.forall₂_map_right_iff, List.forall₂_same]
          intro v _
          exact ⟨by simp, by simp⟩
        · exact ⟨_, by simp only [TuneLayer.reset, if_neg h], fun h' => absurd h' h, fun _ => rfl⟩
      | backwardAct a => exact ⟨_, rfl, fun h => h.elim, fun _ => rfl⟩
      | other => exact ⟨_, rfl, fun h => h.elim, fun _ => rfl⟩
    obtain ⟨l', e, h1⟩ := hl
    simp only [modelReset, e]
    exact ⟨ih.1, List.Forall₂.cons h1 ih.2⟩

/-- C100, Keras 3: `reset_finetuning` raises `TypeError` on every model with a tuned forward activation, and whether it raises or not no
parameter changes: a model in which some parameter is not one keeps it. -/
theorem C100_reset_raises_refuted (ls : List (TuneLayer α)) :
    (modelReset false ls).1 = ls ∧ ((modelReset false ls).2 = some .typeError ↔ ∃ l ∈ ls, l.Tuned) ∧
    ((modelReset false ls).2 = none ↔ ∀ l ∈ ls, ¬ l.Tuned) := by
  induction ls with
  | nil => simp [modelReset]
  | cons l t ih =>
    have hl : (l.Tuned ∧ l.reset false = .error .typeError) ∨ (¬ l.Tuned ∧ l.reset false = .ok l) := by
      cases l with
      | forwardAct ft m act a =>
        by_cases h : ft = true ∧ m ≠ .ibp ∧ act ≠ "linear"
        · left; exact ⟨h, by simp only [TuneLayer.reset, if_pos h]; rfl⟩
        · right; exact ⟨h, by simp only [TuneLayer.reset, if_neg h]⟩
      | backwardAct a => right; exact ⟨fun h => h, rfl⟩
      | other => right; exact ⟨fun h => h, rfl⟩
    rcases hl with ⟨h1, h2⟩ | ⟨h1, h2⟩
    · simp only [modelReset, h2]
      refine ⟨trivial, ⟨fun _ => ⟨l, by simp, h1⟩, fun _ => trivial⟩, ⟨fun h => by simp at h, fun h => absurd h1 (h l (by simp))⟩⟩
    · simp only [modelReset, h2, ih.1, List.mem_cons, exists_eq_or_imp, forall_eq_or_imp, h1, false_or, not_false_eq_true, true_and]
      exact ih.2

/-- C100: the parameters of backward activations are not reset, with either version of Keras: for every model, at every position of a backward
activation. -/
theorem C100_reset_backward_refuted (b : Bool) (ls : List (TuneLayer α)) (i : ℕ) (a : List (List α)) (h : ls[i]? = some (.backwardAct a)) :
    (modelReset b ls).1[i]? = some (.backwardAct a) ∧ (modelReset b ls).1[i]?.map TuneLayer.alphas = some a := by
  suffices hs : (modelReset b ls).1[i]? = some (.backwardAct a) from ⟨hs, by rw [hs]; rfl⟩
  induction ls generalizing i with
  | nil => simp at h
  | cons l t ih =>
    cases hl : l.reset b with
    | error e => simpa [modelReset, hl] using h
    | ok l' =>
      simp only [modelReset, hl]
      cases i with
      | zero =>
        simp only [List.getElem?_cons_zero, Option.some.injEq] at h ⊢
        subst h
        simp only [TuneLayer.reset, Except.ok.injEq] at hl
        exact hl.symm
      | succ i =>
        simp only [List.getElem?_cons_succ] at h ⊢
        exact ih i h

/-- Non-vacuity of C100: a tuned sigmoid in hybrid mode, a backward activation. -/
example : modelReset true [.forwardAct true .hybrid "sigmoid" [[(1 / 2 : ℚ), 0], [1, 1]], .backwardAct [[1 / 3]]] =
      ([.forwardAct true .hybrid "sigmoid" [[1, 1], [1, 1]], .backwardAct [[1 / 3]]], none) ∧
    (modelReset false [.other, .forwardAct true .hybrid "sigmoid" [[(1 / 2 : ℚ), 0], [1, 1]]]).2 = some .typeError ∧
    (modelReset false [.forwardAct true .ibp "sigmoid" [[(1 / 2 : ℚ)]]]).2 = none := by
  refine ⟨rfl, rfl, rfl⟩

end Reset

section Tuning
variable {ι α : Type*} [Fintype ι] [Field α] [LinearOrder α]

theorem badBoxes_take (k : ℕ) (bs : List (BoxOf ι α)) (h : badBoxes bs = false) : badBoxes (bs.take k) = false := by
  unfold badBoxes at *
  rw [List.any_eq_false] at *
  exact fun b hb => h b (List.mem_of_mem_take hb)

/-- C100: on every list of consistent boxes and with every batch size, the tuning functions raise: `ValueError` for a DecomonModel, whose layers
are then marked as frozen; `TypeError` or `AttributeError` for a Keras model. -/
theorem C100_tuning_refuted (batch : ℕ) (bs : List (BoxOf ι α)) (hne : bs ≠ []) (hb : badBoxes bs = false) (s : List ℕ) :
    tuningCall batch .decomon bs = (true, .valueError) ∧
    tuningCall batch (.keras s) bs = (false, if s.length ≤ 1 then .typeError else .attributeError) := by
  have hd : tuningBatch .decomon bs = (true, .valueError) := by simp [tuningBatch, hne, hb]
  have hk : ∀ h : ¬ s.length ≤ 1, tuningBatch (.keras s) bs = (false, .attributeError) := fun h => by simp [tuningBatch, hne, hb, h]
  by_cases h0 : batch = 0
  · refine ⟨by simp [tuningCall, hne, hb, h0, hd], ?_⟩
    by_cases h : s.length ≤ 1
    · simp [tuningCall, hne, hb, h]
    · simp [tuningCall, hne, hb, h0, h, hk h]
  · have t1 : bs.take batch ≠ [] := by simp [List.take_eq_nil_iff, h0, hne]
    have t2 := badBoxes_take batch bs hb
    refine ⟨by simp [tuningCall, tuningBatch, hne, hb, h0, t1, t2], ?_⟩
    by_cases h : s.length ≤ 1
    · simp [tuningCall, hne, hb, h]
    · simp [tuningCall, tuningBatch, hne, hb, h0, t1, t2, h]

/-- C100: without boxes the call raises `ValueError`, with inconsistent boxes `UserWarning`, whatever the model; its layers are not frozen. -/
theorem C100_tuning_no_boxes (batch : ℕ) (model : TuneModel) (bs : List (BoxOf ι α)) :
    tuningCall batch model ([] : List (BoxOf ι α)) = (false, .valueError) ∧
      (badBoxes bs = true → tuningCall batch model bs = (false, .userWarning)) := by
  refine ⟨by simp [tuningCall], fun h => ?_⟩
  have : bs ≠ [] := by rintro rfl; simp [badBoxes] at h
  simp [tuningCall, this, h]

/-- Non-vacuity: a box with its corners exchanged. -/
example : tuningCall 1 .decomon [((fun _ => 1, fun _ => 0) : BoxOf (Fin 2) ℚ)] = (false, .userWarning) :=
  (C100_tuning_no_boxes 1 _ _).2 (by decide +kernel)

/-- Non-vacuity: one box. -/
example : badBoxes [((fun _ => 0, fun _ => 1) : BoxOf (Fin 2) ℚ)] = false ∧
    tuningCall 1 .decomon [((fun _ => 0, fun _ => 1) : BoxOf (Fin 2) ℚ)] = (true, .valueError) :=
  ⟨by decide +kernel, (C100_tuning_refuted 1 _ (by simp) (by decide +kernel) []).1⟩

end Tuning

/-! ### C101: get_AB -/

section AB
variable {ω : Type*}

/-- A pattern that ends with a character absent from `suf` occurs in `n ++ suf` only if it occurs in `n`. -/
theorem infix_append_of_last (p : List Char) (c : Char) (n suf : List Char) (hc : c ∉ suf) (h : (p ++ [c]) <:+: (n ++ suf)) :
    (p ++ [c]) <:+: n := by
  obtain ⟨a, b, e⟩ := h
  have e' : (a ++ p ++ [c]) ++ b = n ++ suf := by rw [← e]; simp
  rcases List.append_eq_append_iff.mp e' with ⟨d, h1, h2⟩ | ⟨d, h1, h2⟩
  · exact ⟨a, d, by rw [h1]; simp⟩
  · rcases List.eq_nil_or_concat d with rfl | ⟨d', x, rfl⟩
    · exact ⟨a, [], by simpa using h1⟩
    · exfalso
      have hx : x = c := by
        have := congrArg List.getLast? h1
        simpa [← List.append_assoc] using this.symm
      subst hx
      exact hc (by rw [h2]; simp)

/-- C101, names: after the conversion the pattern is found in the name of a backward layer exactly when the name of the Keras layer has it. -/
theorem C101_name (n : List Char) : abPattern <:+: toBackwardName n ↔ abPattern <:+: n := by
  constructor
  · intro h
    have e : abPattern = "backward_activatio".toList ++ ['n'] := by decide
    rw [e] at h ⊢
    exact infix_append_of_last _ _ _ _ (by decide) h
  · intro h
    exact h.trans (List.prefix_append n _).isInfix

theorem abLoop_keys (ls : List (ABLayer ω)) : ∀ (d : List (List Char × ω)) (k : List Char),
    k ∈ (abLoop ls d).map Prod.fst ↔ k ∈ d.map Prod.fst ∨ ∃ l ∈ ls, abPattern <:+: l.name ∧ abKey l = k := by
  induction ls with
  | nil => intro d k; simp [abLoop]
  | cons l t ih =>
    intro d k
    by_cases h : abPattern <:+: l.name
    · by_cases h' : abKey l ∈ d.map Prod.fst
      · rw [abLoop, if_pos h, if_pos h', ih]
        constructor
        · rintro (hk | ⟨l', hl, hp⟩)
          · exact .inl hk
          · exact .inr ⟨l', by simp [hl], hp⟩
        · rintro (hk | ⟨l', hl, hp, rfl⟩)
          · exact .inl hk
          · rcases List.mem_cons.mp hl with rfl | hl
            · exact .inl h'
            · exact .inr ⟨l', hl, hp, rfl⟩
      · rw [abLoop, if_pos h, if_neg h', ih]
        constructor
        · rintro (hk | ⟨l', hl, hp⟩)
          · rw [List.map_append, List.mem_append] at hk
            rcases hk with hk | hk
            · exact .inl hk
            · exact .inr ⟨l, by simp, h, by simpa [eq_comm] using hk⟩
          · exact .inr ⟨l', by simp [hl], hp⟩
        · rintro (hk | ⟨l', hl, hp, rfl⟩)
          · exact .inl (by rw [List.map_append, List.mem_append]; exact .inl hk)
          · rcases List.mem_cons.mp hl with rfl | hl
            · exact .inl (by simp)
            · exact .inr ⟨l', hl, hp, rfl⟩
    · rw [abLoop, if_neg h, ih]
      constructor
      · rintro (hk | ⟨l', hl, hp⟩)
        · exact .inl hk
        · exact .inr ⟨l', by simp [hl], hp⟩
      · rintro (hk | ⟨l', hl, hp, rfl⟩)
        · exact .inl hk
        · rcases List.mem_cons.mp hl with rfl | hl
          · exact absurd hp h
          · exact .inr ⟨l', hl, hp, rfl⟩

/-- C101: on a model whose layers were named by the conversion (`names` are the Keras names), with a grid domain and milp, and finetuning for
`get_AB_finetune`: the keys are exactly those of the layers whose Keras name contains the pattern.  Missing with respect to the full claim: all
other backward activations (`C101_empty_refuted`). -/
theorem C101_keys_partial (b : Bool) (ls : List (ABLayer ω)) (hn : ∀ l ∈ ls, l.name = toBackwardName l.layerName) (k : List Char) :
    k ∈ (getAB b true true ls).map Prod.fst ↔ ∃ l ∈ ls, abPattern <:+: l.layerName ∧ abKey l = k := by
  have : getAB b true true ls = abLoop ls [] := by simp [getAB]
  rw [this, abLoop_keys]
  simp only [List.map_nil, List.not_mem_nil, false_or]
  constructor
  · rintro ⟨l, hl, hp, hk⟩
    rw [hn l hl] at hp
    exact ⟨l, hl, (C101_name _).mp hp, hk⟩
  · rintro ⟨l, hl, hp, hk⟩
    exact ⟨l, hl, by rw [hn l hl]; exact (C101_name _).mpr hp, hk⟩

/-- C101: the dictionary is empty for every domain of the library (no `GridDomain` can be instantiated), and with a grid domain for every model
whose Keras layers do not carry the pattern in their name. -/
theorem C101_empty_refuted (b ft : Bool) (ls : List (ABLayer ω)) :
    getAB b false ft ls = [] ∧
    ((∀ l ∈ ls, l.name = toBackwardName l.layerName ∧ ¬ abPattern <:+: l.layerName) → getAB b true ft ls = []) := by
  refine ⟨rfl, fun h => ?_⟩
  unfold getAB
  simp only [Bool.true_eq_false, if_false]
  by_cases hf : b = true ∧ ft = false
  · rw [if_pos hf]
  · rw [if_neg hf]
    by_contra hne
    obtain ⟨⟨k, v⟩, t, e⟩ := List.exists_cons_of_ne_nil hne
    have := (abLoop_keys ls [] k).mp (by rw [e]; simp)
    simp only [List.map_nil, List.not_mem_nil, false_or] at this
    obtain ⟨l, hl, hp, -⟩ := this
    rw [(h l hl).1] at hp
    exact (h l hl).2 ((C101_name _).mp hp)

/-- Non-vacuity of C101: the activation that Keras names `activation` is not found; a layer named `my_backward_activation` is. -/
example : getAB false true true [⟨toBackwardName "activation".toList, "activation".toList, 1, 7⟩] = [] ∧
    getAB false true true [⟨toBackwardName "my_backward_activation".toList, "my_backward_activation".toList, 1, 7⟩] =
      [("my_backward_activation_1".toList, 7)] := by decide +kernel

end AB

/-! ### C102: target labels -/

section Targets
variable {ι κ X α : Type} [Fintype ι] [Fintype κ] [Nonempty κ] [Field α] [LinearOrder α] [IsStrictOrderedRing α]

/-- C102, one batch: with targets given as one 0/1 vector for every sample and without split (`batch_size ≤ 0`), the score of every sample that
has a target and a source is the largest `u_t - l_s` over its own pairs.  Missing with respect to the full claim: integer targets
(`C102_int_refuted`) and several batches (`C102_batches_refuted`). -/
theorem C102_targets_partial (rows : List (Full X ι κ α × (κ → α))) (tgt : List (κ → α)) (hl : tgt.length = rows.length) :
    ∃ scs, advNoiseTargets 0 rows (.rows tgt) = .ok scs ∧
      List.Forall₂ (fun (r : (Full X ι κ α × (κ → α)) × (κ → α)) sc =>
        ZeroOne r.1.2 → ZeroOne r.2 → (∃ t, r.2 t = 1) → (∃ s, r.1.2 s = 1) →
        IsGreatest {v | ∃ t s, r.2 t = 1 ∧ r.1.2 s = 1 ∧ v = r.1.1.uc t - r.1.1.lc s} sc) (rows.zip tgt) scs := by
  have h0 : advNoiseTargets 0 rows (.rows tgt) =
      .ok (maskedScores (List.zipWith (fun (r : Full X ι κ α × (κ → α)) tgt => (ibpPair r.1, r.2, tgt)) rows tgt)) := by
    simp [advNoiseTargets, noiseTargets, noiseBatch, hl]
  refine ⟨_, h0, ?_⟩
  have := C33_mask_exact (List.zipWith (fun (r : Full X ι κ α × (κ → α)) tgt => (ibpPair r.1, r.2, tgt)) rows tgt)
  have hz : List.zipWith (fun (r : Full X ι κ α × (κ → α)) tgt => (ibpPair r.1, r.2, tgt)) rows tgt =
      (rows.zip tgt).map (fun r => (ibpPair r.1.1, r.1.2, r.2)) := by
    rw [List.zip, List.map_zipWith]
  rw [hz] at this ⊢
  rw [List.forall₂_map_left_iff] at this
  refine this.imp fun r sc h z1 z2 ⟨t, ht⟩ ⟨s, hs⟩ => ?_
  exact h.2 z1 z2 ⟨_, t, s, ht, hs, rfl⟩

theorem collect_error {τ : Type*} (e : PyErr) (l : List (Except PyErr τ)) (h : l.head? = some (.error e)) : collect l = .error e := by
  cases l with
  | nil => simp at h
  | cons a l => simp only [List.head?_cons, Option.some.injEq] at h; subst h; rfl

/-- C102: as soon as there are more samples than `batch_size`, `get_adv_noise` with targets for every sample raises `ValueError`, whatever the
model and the labels. -/
theorem C102_batches_refuted (batch : ℕ) (hb : 0 < batch) (rows : List (Full X ι κ α × (κ → α))) (hr : batch < rows.length)
    (tgt : List (κ → α)) (hl : tgt.length = rows.length) : advNoiseTargets batch rows (.rows tgt) = .error .valueError := by
  have hq : 0 < rows.length / batch + (if 0 < rows.length % batch then 1 else 0) := by
    have : 0 < rows.length / batch := Nat.div_pos hr.le hb
    omega
  have hlen : (pySlice (batch * 0) (batch * (0 + 1)) rows).length = batch := by
    simp [pySlice]; omega
  have first : noiseBatch (pySlice (batch * 0) (batch * (0 + 1)) rows) (some tgt) = .error .valueError := by
    unfold noiseBatch
    simp only [hlen]
    by_cases h1 : (tgt.length * Fintype.card κ) % batch ≠ 0
    · exact if_pos h1
    · rw [if_neg h1]
      by_cases h2 : tgt.length ≠ batch ∧ tgt.length ≠ 1 ∧ batch ≠ 1
      · exact if_pos h2
      · rw [if_neg h2]
        exact if_pos (by omega)
  obtain ⟨q, hq'⟩ : ∃ q, rows.length / batch + (if 0 < rows.length % batch then 1 else 0) = q + 1 := ⟨_, (Nat.succ_pred_eq_of_pos hq).symm⟩
  unfold advNoiseTargets
  simp only [noiseTargets, hb, if_true]
  rw [collect_error .valueError]
  · rfl
  · unfold batches
    rw [hq', List.range_succ_eq_map]
    simp only [List.map_cons, List.head?_cons, first]

/-- C102: an integer target is replaced by the source labels: the scores do not depend on it, and with bounds that are not empty the score of
every sample with a source is at least zero, so that it never certifies. -/
theorem C102_int_refuted (rows : List (Full X ι κ α × (κ → α))) (c : ℤ) :
    ∃ scs, advNoiseTargets 0 rows (.int c) = .ok scs ∧ (∀ c', advNoiseTargets 0 rows (.int c') = .ok scs) ∧
      List.Forall₂ (fun (r : Full X ι κ α × (κ → α)) sc => ∀ s, r.2 s = 1 → r.1.lc s ≤ r.1.uc s → 0 ≤ sc) rows scs := by
  have h0 : ∀ c, advNoiseTargets 0 rows (.int c) =
      .ok (maskedScores (List.zipWith (fun (r : Full X ι κ α × (κ → α)) tgt => (ibpPair r.1, r.2, tgt)) rows (rows.map Prod.snd))) := by
    intro c; simp [advNoiseTargets, noiseTargets, noiseBatch]
  refine ⟨_, h0 c, h0, ?_⟩
  have hz : List.zipWith (fun (r : Full X ι κ α × (κ → α)) tgt => (ibpPair r.1, r.2, tgt)) rows (rows.map Prod.snd) =
      rows.map (fun r => (ibpPair r.1, r.2, r.2)) := by
    clear h0
    induction rows with
    | nil => rfl
    | cons r t ih => simp [ih]
  rw [hz]
  have := C33_mask_exact (rows.map fun r : Full X ι κ α × (κ → α) => (ibpPair r.1, r.2, r.2))
  rw [List.forall₂_map_left_iff] at this
  refine this.imp fun r sc h s hs hle => ?_
  have := h.1 _ ⟨s, s, hs, hs, rfl⟩
  simp only [ibpPair] at this
  linarith

/-- C102: `check_adv_box` ignores the targets: whatever it returns with targets is what it returns without; an integer raises
`AttributeError` on consistent boxes. -/
theorem C102_check_refuted (net : BoxOf ι α → Full X ι κ α) (m : Mode) (batch : ℕ) (rows : List (BoxOf ι α × (κ → α))) :
    (∀ tgt r, checkTargets net m batch rows tgt = .ok r → checkTargets net m batch rows .absent = .ok r) ∧
    (∀ c, badBoxes (rows.map Prod.fst) = false → checkTargets net m batch rows (.int c) = .error .attributeError) := by
  constructor
  · intro tgt r h
    have one_eq : ∀ (n : ℕ) (rs : List (BoxOf ι α × (κ → α))) (v : List α),
        (if badBoxes (rs.map Prod.fst) then Except.error PyErr.userWarning
          else if (some n).any fun n => (n * Fintype.card κ) % rs.length ≠ 0 then .error .valueError
          else checkAdvBase net m (rs.map fun s => ⟨s.1, s.2, fun k => 1 - s.2 k⟩)) = .ok v →
        (if badBoxes (rs.map Prod.fst) then Except.error PyErr.userWarning
          else if (none : Option ℕ).any fun n => (n * Fintype.card κ) % rs.length ≠ 0 then .error .valueError
          else checkAdvBase net m (rs.map fun s => ⟨s.1, s.2, fun k => 1 - s.2 k⟩)) = .ok v := by
      intro n rs v hv
      by_cases h1 : badBoxes (rs.map Prod.fst) = true
      · rw [if_pos h1] at hv; cases hv
      · rw [if_neg h1] at hv ⊢
        by_cases h2 : ((some n).any fun n => (n * Fintype.card κ) % rs.length ≠ 0) = true
        · rw [if_pos h2] at hv; cases hv
        · rw [if_neg h2] at hv
          rw [if_neg (by simp)]
          exact hv
    have coll : ∀ (f g : List (BoxOf ι α × (κ → α)) → Except PyErr (List α)), (∀ rs v, f rs = .ok v → g rs = .ok v) →
        ∀ (l : List (List (BoxOf ι α × (κ → α)))) (v : List (List α)), collect (l.map f) = .ok v → collect (l.map g) = .ok v := by
      intro f g hfg l
      induction l with
      | nil => intro v hv; exact hv
      | cons a l ih =>
        intro v hv
        simp only [List.map_cons] at hv ⊢
        cases hf : f a with
        | error e => rw [hf] at hv; simp [collect] at hv
        | ok w =>
          rw [hf] at hv
          rw [hfg a w hf]
          simp only [collect] at hv ⊢
          cases hc : collect (l.map f) with
          | error e => rw [hc] at hv; simp at hv
          | ok x => rw [hc] at hv; rw [ih x hc]; exact hv
    unfold checkTargets at h ⊢
    dsimp only at h ⊢
    by_cases hb : badBoxes (rows.map Prod.fst) = true
    · rw [if_pos hb] at h; cases h
    · rw [if_neg hb] at h ⊢
      cases tgt with
      | absent => exact h
      | int c => cases h
      | rows t =>
        dsimp only at h
        by_cases h1 : (t.length * Fintype.card κ) % rows.length ≠ 0
        · rw [if_pos h1] at h; cases h
        · rw [if_neg h1] at h
          by_cases hbt : 0 < batch
          · rw [if_pos hbt] at h ⊢
            generalize hc : collect _ = cv at h
            cases cv with
            | error e => cases h
            | ok v =>
              rw [coll _ _ (one_eq t.length) _ _ hc]
              exact h
          · rw [if_neg hbt] at h ⊢
            exact one_eq t.length rows r h
  · intro c hb
    unfold checkTargets
    dsimp only
    rw [if_neg (by simp [hb])]

end Targets

/-- The bounds used in the examples for C102: two outputs, the first one in [3,4], the second one in [0,1]. -/
def exTargets : Full Unit (Fin 1) (Fin 2) ℚ :=
  ⟨(), ![4, 1], fun _ _ => 0, fun _ => 0, ![3, 0], fun _ _ => 0, fun _ => 0, fun _ => 0, fun _ => 0⟩

/-- Non-vacuity of C102: source 0, target 1 gives the score 1 - 3 = -2; the integer target 1 gives 4 - 3 = 1 (the source against itself); two
samples in batches of one raise. -/
example : advNoiseTargets 0 [(exTargets, ![1, 0])] (.rows [![0, 1]]) = .ok [-2] ∧ advNoiseTargets 0 [(exTargets, ![1, 0])] (.int 1) = .ok [1] ∧
    advNoiseTargets 1 [(exTargets, ![1, 0]), (exTargets, ![1, 0])] (.rows [![0, 1], ![0, 1]]) = .error .valueError := by
  refine ⟨by decide +kernel, by decide +kernel, by decide +kernel⟩

end Decomon
