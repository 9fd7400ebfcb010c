import Verif.Model.Convert
import Mathlib.Tactic.NormNum
import Mathlib.Tactic.Ring

/-!
C94: `to_decomon` bounds the layer that it is given, or raises.  C95: `to_backward` propagates with the mode and the domain that it is given.
C96: configurations.  C97: batched identity and diagonal tensors.
-/

namespace Decomon

/-! ### C94 -/

section C94
variable {V : Type}

/-- Spec: the function computed by a Keras layer, activation included. -/
def KerasLayer.fn (apply : String → V → V) (L : KerasLayer V) (x : V) : V :=
  match L.act with
  | none => L.core x
  | some a => apply a (L.core x)

/-- C94: exactly when `to_decomon` succeeds. -/
theorem C94_success_iff (apply : String → V → V) (ctorOk : KerasLayer V → Bool) (dc : Bool) (L : KerasLayer V) :
    (∃ d, toDecomonLayer apply ctorOk dc L = .ok d) ↔
      L.built ≠ some false ∧ L.cls ∈ decomonClasses ∧ ctorOk L = true ∧
        ∃ s, L.calls ≠ [] ∧ (∀ c ∈ L.calls, c = s) ∧ (dc = true → s.length = 1) := by
  unfold toDecomonLayer
  by_cases hb : L.built = some false
  · simp [hb]
  rw [if_neg hb]
  by_cases hc : L.cls ∉ decomonClasses ∨ ctorOk L = false
  · rw [if_pos hc]
    constructor
    · rintro ⟨d, h⟩
      cases h
    · rintro ⟨_, h1, h2, _⟩
      rcases hc with h | h
      · exact absurd h1 h
      · rw [h2] at h
        cases h
  rw [if_neg hc]
  push Not at hc
  have hct : ctorOk L = true := by simpa using hc.2
  unfold getLayerInputShape
  cases hcalls : L.calls with
  | nil => simp
  | cons s t =>
    by_cases ht : ∀ x ∈ t, x = s
    · simp only [if_pos ht]
      by_cases hd : dc = true ∧ s.length ≠ 1
      · rw [if_pos hd]
        constructor
        · rintro ⟨d, h⟩
          cases h
        · rintro ⟨_, _, _, s', _, h1, h2⟩
          have : s = s' := h1 s (by simp)
          exact absurd (this ▸ h2 hd.1) hd.2
      · rw [if_neg hd]
        refine ⟨fun _ => ⟨hb, hc.1, hct, s, by simp, ?_, ?_⟩, fun _ => ⟨_, rfl⟩⟩
        · intro c hcm
          rcases List.mem_cons.mp hcm with h | h
          · exact h
          · exact ht c h
        · intro h
          by_contra hne
          exact hd ⟨h, hne⟩
    · simp only [if_neg ht]
      constructor
      · rintro ⟨d, h⟩
        cases h
      · rintro ⟨_, _, _, s', _, h1, _⟩
        refine absurd (fun x hx => ?_) ht
        rw [h1 x (by simp [hx]), h1 s (by simp)]

/-- C94: which exception is raised first: unbuilt, then unknown or refused, then never called. -/
theorem C94_errors (apply : String → V → V) (ctorOk : KerasLayer V → Bool) (dc : Bool) (L : KerasLayer V) :
    (L.built = some false → toDecomonLayer apply ctorOk dc L = .error .valueError) ∧
      (L.built ≠ some false → L.cls ∉ decomonClasses → toDecomonLayer apply ctorOk dc L = .error .notImplemented) ∧
      (L.built ≠ some false → L.cls ∈ decomonClasses → ctorOk L = true → L.calls = [] →
        toDecomonLayer apply ctorOk dc L = .error .attributeError) := by
  refine ⟨fun h => by simp [toDecomonLayer, h], fun h1 h2 => by simp [toDecomonLayer, h1, h2], fun h1 h2 h3 h4 => ?_⟩
  simp [toDecomonLayer, h1, h2, h3, getLayerInputShape, h4]

/-- C94: a converted layer bounds the function of the Keras layer.  Missing: a layer with an activation argument, refuted below. -/
theorem C94_bounds_partial (apply : String → V → V) (hlin : apply "linear" = id) (ctorOk : KerasLayer V → Bool) (dc : Bool)
    (L : KerasLayer V) (hact : L.act = none ∨ L.act = some "linear" ∨ L.isActivation = true) (d : DLayer V)
    (h : toDecomonLayer apply ctorOk dc L = .ok d) : d.bounded = L.fn apply := by
  unfold toDecomonLayer at h
  split at h
  · cases h
  · split at h
    · cases h
    · split at h
      · cases h
      · split at h
        · cases h
        · cases h
          funext x
          unfold KerasLayer.fn
          rcases hact with ha | ha | ha
          · cases hi : L.isActivation <;> simp [ha]
          · cases hi : L.isActivation <;> simp [ha, hlin]
          · cases hb : L.act <;> simp [ha]

/-- `Dense(1, activation="relu")` with kernel 1 and bias 0, called once on a batch of vectors of size one. -/
def denseRelu : KerasLayer ℚ := ⟨"Dense", "dense", some true, false, some "relu", [[[none, some 1]]], fun x => x⟩

/-- The activations of the example. -/
def applyRelu (a : String) (x : ℚ) : ℚ := if a = "relu" then max x 0 else x

/-- C94: a `Dense` with an activation is converted without error and without its activation: on `[-2,-1]` the layer gives 0, and -1 is an
upper bound of what is bounded. -/
theorem C94_activation_refuted :
    ∃ d, toDecomonLayer applyRelu (fun _ => true) false denseRelu = .ok d ∧ (∀ x : ℚ, -2 ≤ x → x ≤ -1 → d.bounded x ≤ -1) ∧
      ∀ x : ℚ, -2 ≤ x → x ≤ -1 → -1 < denseRelu.fn applyRelu x := by
  refine ⟨⟨"DecomonDense", "dense_decomon", fun x => x⟩, ?_, fun x _ h => h, fun x _ h => ?_⟩
  · simp [toDecomonLayer, denseRelu, decomonClasses, getLayerInputShape]
  · simp only [denseRelu, KerasLayer.fn, applyRelu, if_true]
    exact lt_of_lt_of_le (by norm_num) (le_max_right x 0)

/-- The same layer built and called on one shape converts; called on two shapes, unknown or never called, it does not. -/
example : (∃ d, toDecomonLayer applyRelu (fun _ => true) true denseRelu = .ok d) ∧
    (¬ ∃ d, toDecomonLayer applyRelu (fun _ => true) true { denseRelu with calls := [[[none, some 1]], [[none, some 2]]] } = .ok d) ∧
    toDecomonLayer applyRelu (fun _ => true) true { denseRelu with calls := [] } = .error .attributeError ∧
    toDecomonLayer applyRelu (fun _ => true) true { denseRelu with cls := "Conv1D" } = .error .notImplemented := by
  refine ⟨(C94_success_iff _ _ _ _).mpr ⟨by decide, by decide, rfl, [[none, some 1]], by simp [denseRelu], by simp [denseRelu], fun _ => rfl⟩, fun h => ?_,
    (C94_errors _ _ _ _).2.2 (by decide) (by decide) rfl rfl, (C94_errors _ _ _ _).2.1 (by decide) (by decide)⟩
  obtain ⟨-, -, -, s, -, h, -⟩ := (C94_success_iff _ _ _ _).mp h
  have h1 := h [[none, some 1]] (by simp)
  have h2 := h [[none, some 2]] (by simp)
  rw [← h1] at h2
  simp at h2

example (d : DLayer ℚ) (h : toDecomonLayer applyRelu (fun _ => true) false { denseRelu with act := some "linear" } = .ok d) : d.bounded 5 = 5 := by
  rw [C94_bounds_partial applyRelu (by funext x; simp [applyRelu]) (fun _ => true) false _ (.inr (.inl rfl)) d h]
  simp [KerasLayer.fn, denseRelu, applyRelu]

/-- Non-vacuity of C94: the layer `Activation("relu")` keeps its activation. -/
example : ∃ d, toDecomonLayer applyRelu (fun _ => true) false
    (⟨"Activation", "act", some true, true, some "relu", [[[none, some 1]]], fun x => x⟩ : KerasLayer ℚ) = .ok d ∧ d.bounded (-1) = 0 ∧
      d.name = "act_decomon" :=
  ⟨⟨"DecomonActivation", "act_decomon", fun x => applyRelu "relu" x⟩, by simp [toDecomonLayer, decomonClasses, getLayerInputShape],
    by norm_num [applyRelu], rfl⟩

end C94

/-! ### C95 -/

section C95
variable {δ : Type}

/-- C95: for a Keras layer, the backward layer has the mode and the domain of the call, the box by default; it exists exactly for the
classes supported by `to_decomon` except for pooling and six merge layers.  Missing: those classes, and layers that are already
decomon layers, refuted below. -/
theorem C95_keras_layer_partial (box : δ) (cls : String) (mode : Mode) (domain : Option δ) :
    ((∃ a, toBackwardAttrs box cls none mode domain = .ok a) ↔ cls ∈ ["Conv2D", "Dense", "Activation", "Flatten", "BatchNormalization",
      "Dropout", "InputLayer", "Add", "Average", "Reshape", "Permute"]) ∧
    ∀ a, toBackwardAttrs box cls none mode domain = .ok a →
      a.mode = mode ∧ (∀ d, domain = some d → a.domain = d) ∧ (domain = none → a.domain = box) := by
  constructor
  · unfold toBackwardAttrs
    by_cases h1 : cls ∈ decomonClasses
    · rw [if_neg (not_not.mpr h1)]
      simp only [decomonClasses, List.mem_cons, List.not_mem_nil, or_false] at h1
      rcases h1 with rfl | rfl | rfl | rfl | rfl | rfl | rfl | rfl | rfl | rfl | rfl | rfl | rfl | rfl | rfl | rfl | rfl | rfl <;>
        simp [decomonOnlyMerges]
    · rw [if_pos h1]
      simp only [reduceCtorEq, exists_false, false_iff]
      intro h
      exact h1 (by simp only [decomonClasses, List.mem_cons, List.not_mem_nil, or_false] at h ⊢; tauto)
  · intro a h
    unfold toBackwardAttrs at h
    split_ifs at h
    cases h
    exact ⟨rfl, fun d h => by simp [h], fun h => by simp [h]⟩

/-- C95: six merge layers that `to_decomon` supports raise `KeyError` as Keras layers; `Dot` raises as a decomon layer too. -/
theorem C95_merge_refuted (box : δ) (mode : Mode) (domain : Option δ) :
    (∀ cls ∈ ["Subtract", "Maximum", "Minimum", "Concatenate", "Multiply", "Dot"],
      cls ∈ decomonClasses ∧ toBackwardAttrs box cls none mode domain = .error .keyError) ∧
    ∀ w, toBackwardAttrs box "Dot" (some w) mode domain = .error .notImplemented := by
  refine ⟨fun cls h => ?_, fun w => by simp [toBackwardAttrs, decomonClasses, decomonOnlyMerges]⟩
  simp only [List.mem_cons, List.not_mem_nil, or_false] at h
  rcases h with rfl | rfl | rfl | rfl | rfl | rfl <;> simp [toBackwardAttrs, decomonClasses, decomonOnlyMerges]

/-- C95: an unknown class raises `NotImplementedError`, whatever the other arguments. -/
theorem C95_unknown (box : δ) (cls : String) (hc : cls ∉ decomonClasses) (w : Option (PropAttrs δ)) (mode : Mode) (domain : Option δ) :
    toBackwardAttrs box cls w mode domain = .error .notImplemented := by
  unfold toBackwardAttrs
  rw [if_pos hc]

/-- C95: the arguments are ignored for a decomon layer: asked for hybrid with domain 1, one gets ibp with domain 0. -/
theorem C95_decomon_layer_refuted :
    toBackwardAttrs (0 : ℕ) "Dense" (some ⟨.ibp, 0, false⟩) .hybrid (some 1) = .ok ⟨.ibp, 0, false⟩ := by
  simp [toBackwardAttrs, decomonClasses, decomonOnlyMerges]

/-- C95: `MaxPooling2D` is converted by `to_decomon` and refused by `to_backward`, whatever the arguments. -/
theorem C95_maxpooling_refuted (box : δ) (w : Option (PropAttrs δ)) (mode : Mode) (domain : Option δ) :
    "MaxPooling2D" ∈ decomonClasses ∧ toBackwardAttrs box "MaxPooling2D" w mode domain = .error .notImplemented := by
  simp [toBackwardAttrs, decomonClasses, decomonOnlyMerges]

example : (∃ a, toBackwardAttrs (0 : ℕ) "Reshape" none .hybrid (some 5) = .ok a) ∧ (¬ ∃ a, toBackwardAttrs (0 : ℕ) "Maximum" none .hybrid (some 5) = .ok a) ∧
    toBackwardAttrs (0 : ℕ) "Conv1D" none .ibp none = .error .notImplemented :=
  ⟨(C95_keras_layer_partial 0 _ _ _).1.mpr (by decide), fun h => absurd ((C95_keras_layer_partial 0 _ _ _).1.mp h) (by decide), C95_unknown 0 "Conv1D" (by decide) none .ibp none⟩

/-- Non-vacuity of C95. -/
example : toBackwardAttrs (0 : ℕ) "Dense" none .affine (some 7) = .ok ⟨.affine, 7, false⟩ := by
  simp [toBackwardAttrs, decomonClasses, decomonOnlyMerges]

end C95

/-! ### C96 -/

section C96
variable {δ ℓ : Type}

/-- C96: a `DecomonActivation` made again from its configuration is the same.  Missing: another slope than the default, refuted below. -/
theorem C96_activation_partial (box : δ) (a : ActAttrs δ) (h : a.slope = .vSlope) : actInit box a.getConfig = .ok a := by
  cases a
  simp only at h
  subst h
  rfl

/-- C96: in general only the slope differs: the default one is used. -/
theorem C96_activation_slope (box : δ) (a : ActAttrs δ) :
    ∃ b, actInit box a.getConfig = .ok b ∧ b.slope = .vSlope ∧ b.activation = a.activation ∧ b.domain = a.domain ∧
      b.dcDecomp = a.dcDecomp ∧ b.mode = a.mode ∧ b.finetune = a.finetune ∧ b.shared = a.shared ∧ b.fast = a.fast :=
  ⟨_, rfl, rfl, rfl, rfl, rfl, rfl, rfl, rfl, rfl⟩

/-- C96: a ReLU with the slope `z-slope`, made again from its configuration, gives another lower relaxation: on `[-1,2]` the weight is 1
instead of 0. -/
theorem C96_slope_lost_refuted :
    ∃ a b : ActAttrs ℕ, actInit 0 a.getConfig = .ok b ∧ (linearHullRelu (1 / 1000 : ℚ) a.slope 1 2 (-1)).wl = 0 ∧
      (linearHullRelu (1 / 1000 : ℚ) b.slope 1 2 (-1)).wl = 1 :=
  ⟨⟨"relu", 0, false, .hybrid, .zSlope, false, true, true⟩, ⟨"relu", 0, false, .hybrid, .vSlope, false, true, true⟩, rfl, by decide +kernel⟩

/-- C96: a `BackwardActivation` around a Keras layer made again from its configuration is the same, slope and finetuning included. -/
theorem C96_backward_activation (box : δ) (a : BackActAttrs δ ℓ) : backActInitFrom box a.getConfig = .ok a := rfl

/-- C96: a `Convert2Mode` layer keeps its shapes when made again from its configuration.  Missing: an explicit `input_dim`, refuted
below. -/
theorem C96_convert2mode_partial (ncomp : ℕ) (a : ConvAttrs δ) (h : a.inputDim = -1) :
    a.roundTrip = a ∧ convXShape ncomp a.roundTrip = convXShape ncomp a := by
  have : a.roundTrip = a := by cases a; simp only at h; subst h; rfl
  exact ⟨this, by rw [this]⟩

/-- C96: with `input_dim=3` in a box, the tensor `x` is announced with the shape `(2, -1)` instead of `(2, 3)`. -/
theorem C96_convert2mode_refuted :
    convXShape 2 (⟨.ibp, .hybrid, (0 : ℕ), 3⟩ : ConvAttrs ℕ) = [2, 3] ∧
      convXShape 2 (⟨.ibp, .hybrid, (0 : ℕ), 3⟩ : ConvAttrs ℕ).roundTrip = [2, -1] := by
  decide +kernel

/-- C96: a `DecomonDense` or `DecomonConv2D` that does not share its weights can be called after `from_config` and `build`. -/
theorem C96_kernel_partial (o : KernelObj) (fresh : ℕ) (h : o.shared = false) : (o.fromConfig.build fresh).call = .ok fresh := by
  simp [KernelObj.fromConfig, KernelObj.build, KernelObj.call, h]

/-- C96: sharing weights with an object that does not share them changes nothing: it has no weight before `build`, and its own after. -/
theorem C96_not_shared (k fresh : ℕ) :
    ((KernelObj.mk false none).share k).call = .error .attributeError ∧
      (((KernelObj.mk false none).build fresh).share k).call = .ok fresh := ⟨rfl, rfl⟩

/-- C96: one that shares its weights can be called before, and cannot after `from_config` and `build`, until the weights are shared again. -/
theorem C96_shared_refuted (k fresh : ℕ) :
    KernelObj.call ((KernelObj.mk true none).share k) = .ok k ∧
      (((KernelObj.mk true none).share k).fromConfig.build fresh).call = .error .attributeError ∧
      ((((KernelObj.mk true none).share k).fromConfig.share k).build fresh).call = .ok k := by
  simp [KernelObj.fromConfig, KernelObj.build, KernelObj.call, KernelObj.share]

example : actInit 0 (⟨"relu", 5, true, .affine, .vSlope, true, true, false⟩ : ActAttrs ℕ).getConfig = .ok ⟨"relu", 5, true, .affine, .vSlope, true, true, false⟩ :=
  C96_activation_partial 0 _ rfl

example : ∃ b, actInit 0 (⟨"relu", 5, true, .affine, .zSlope, true, true, false⟩ : ActAttrs ℕ).getConfig = .ok b ∧ b.slope = .vSlope ∧ b.activation = "relu" := by
  obtain ⟨b, h, h1, h2, -⟩ := C96_activation_slope 0 (⟨"relu", 5, true, .affine, .zSlope, true, true, false⟩ : ActAttrs ℕ)
  exact ⟨b, h, h1, h2⟩

example : convXShape 2 (⟨.ibp, .hybrid, (0 : ℕ), -1⟩ : ConvAttrs ℕ).roundTrip = convXShape 2 (⟨.ibp, .hybrid, (0 : ℕ), -1⟩ : ConvAttrs ℕ) :=
  (C96_convert2mode_partial 2 _ rfl).2

example : ((KernelObj.mk false (some 3)).fromConfig.build 7).call = .ok 7 := C96_kernel_partial _ 7 rfl

/-- Non-vacuity of C96. -/
example : actInit 0 (⟨"relu", 5, true, .affine, .vSlope, true, true, false⟩ : ActAttrs ℕ).getConfig =
    .ok ⟨"relu", 5, true, .affine, .vSlope, true, true, false⟩ := rfl

end C96

/-! ### C97 -/

section C97
variable {α : Type}

theorem flatten_block {β : Type} (L : List (List β)) (m : ℕ) (hL : ∀ l ∈ L, l.length = m) (i q : ℕ) (hq : q < m) :
    L.flatten[i * m + q]? = (L[i]?).bind (·[q]?) := by
  induction L generalizing i with
  | nil => simp
  | cons l t ih =>
    have hl : l.length = m := hL l (by simp)
    rw [List.flatten_cons]
    cases i with
    | zero => simp [List.getElem?_append_left (by omega : q < l.length)]
    | succ i =>
      have e : (i + 1) * m + q = m + (i * m + q) := by ring
      rw [List.getElem?_append_right (by rw [hl, e]; omega), hl, e, Nat.add_sub_cancel_left, ih (fun l h => hL l (by simp [h]))]
      simp

theorem divmod_entry {n j k : ℕ} (hk : k < n) : (j * n + k) / n = j ∧ (j * n + k) % n = k := by
  have hn : 0 < n := by omega
  constructor
  · rw [Nat.add_comm, Nat.add_mul_div_right _ _ hn, Nat.div_eq_of_lt hk, Nat.zero_add]
  · rw [Nat.add_comm, Nat.add_mul_mod_self_right, Nat.mod_eq_of_lt hk]

theorem entry_lt {n j k : ℕ} (hj : j < n) (hk : k < n) : j * n + k < n * n := by
  calc j * n + k < j * n + n := by omega
    _ = (j + 1) * n := by ring
    _ ≤ n * n := Nat.mul_le_mul_right n (by omega)

/-- C97: `BatchedIdentityLike` gives the announced shape, and the entry `(i, j, k)`, with `i` the position in the leading dimensions, is 1 if
`j = k` and 0 otherwise. -/
theorem C97_identity [Zero α] [One α] (s : List ℕ) (n i j k : ℕ) (hi : i < s.prod) (hj : j < n) (hk : k < n) :
    batchedSpec (s ++ [n]) = .ok (batchedIdentityLike (α := α) s n).shape ∧
      (batchedIdentityLike (α := α) s n).data[i * (n * n) + (j * n + k)]? = some (if j = k then 1 else 0) := by
  refine ⟨by simp [batchedSpec, batchedIdentityLike], ?_⟩
  have hq := entry_lt hj hk
  obtain ⟨h1, h2⟩ := divmod_entry (j := j) hk
  unfold batchedIdentityLike
  simp only
  rw [flatten_block _ (n * n) (by intro l hl; rw [List.eq_of_mem_replicate hl]; simp) i _ hq]
  simp [List.getElem?_replicate, hi, List.getElem?_map, List.getElem?_range hq, h1, h2]

/-- C97: `BatchedDiagLike` on a matrix gives the announced shape and the rows on the diagonals.  Missing: tensors of higher rank, refuted
below. -/
theorem C97_diag_partial [Zero α] (b n : ℕ) (x : List α) (hx : x.length = b * n) (i j k : ℕ) (hi : i < b) (hj : j < n) (hk : k < n) :
    batchedSpec [b, n] = .ok (batchedDiagLike b [n] x).shape ∧
      (batchedDiagLike b [n] x).data[i * (n * n) + (j * n + k)]? = if j = k then x[i * n + j]? else some 0 := by
  refine ⟨by simp [batchedSpec, batchedDiagLike], ?_⟩
  have hq := entry_lt hj hk
  obtain ⟨h1, h2⟩ := divmod_entry (j := j) hk
  have hlt : i * n + k < x.length := by
    rw [hx]
    calc i * n + k < i * n + n := by omega
      _ = (i + 1) * n := by ring
      _ ≤ b * n := Nat.mul_le_mul_right n (by omega)
  unfold batchedDiagLike
  simp only [List.flatMap_def, List.prod_cons, List.prod_nil, Nat.mul_one]
  rw [flatten_block _ (n * n) (by intro l hl; obtain ⟨a, _, rfl⟩ := List.mem_map.mp hl; simp) i _ hq]
  rw [List.getElem?_map, List.getElem?_range hi]
  simp only [Option.map_some, Option.bind_some]
  rw [List.getElem?_map, List.getElem?_range hq]
  simp only [Option.map_some, h1, h2]
  by_cases hjk : j = k
  · subst hjk
    simp only [if_true]
    rw [List.getD_eq_getElem?_getD, List.getElem?_eq_getElem hlt]
    rfl
  · simp [hjk]

/-- C97: on a tensor of shape `(1, 2, 2)` the result has shape `(1, 4, 4)`; `(1, 2, 2, 2)` is announced. -/
theorem C97_diag_refuted :
    batchedSpec [1, 2, 2] = .ok [1, 2, 2, 2] ∧ (batchedDiagLike 1 [2, 2] [(1 : ℚ), 2, 3, 4]).shape = [1, 4, 4] :=
  ⟨rfl, rfl⟩

/-- C97: `check_if_single_shape` recognises the shapes with at least one dimension (the first entry is an integer or `None`); it answers
no on lists and tuples of shapes and on dictionaries, and raises on what is neither. -/
theorem C97_single_shape_partial (n : ℤ) (w l : List PyVal) (v : PyVal) (hv : v = .tuple w ∨ v = .list w ∨ v = .dict) :
    checkIfSingleShape (.tuple (.int n :: l)) = .ok true ∧ checkIfSingleShape (.tuple (.none :: l)) = .ok true ∧
      checkIfSingleShape (.list (.int n :: l)) = .ok true ∧ checkIfSingleShape (.list (.none :: l)) = .ok true ∧
      checkIfSingleShape (.tuple (v :: l)) = .ok false ∧ checkIfSingleShape (.list (v :: l)) = .ok false ∧
      checkIfSingleShape .dict = .ok false ∧ checkIfSingleShape (.int n) = .error .typeError ∧
      checkIfSingleShape .none = .error .typeError := by
  rcases hv with rfl | rfl | rfl <;> exact ⟨rfl, rfl, rfl, rfl, rfl, rfl, rfl, rfl, rfl⟩

/-- C97: the shape `()` of a scalar is not recognised. -/
theorem C97_scalar_shape_refuted : checkIfSingleShape (.tuple []) = .ok false := rfl

example : (batchedIdentityLike (α := ℚ) [2] 3).data[1 * (3 * 3) + (2 * 3 + 2)]? = some 1 ∧
    (batchedDiagLike 2 [2] [(1 : ℚ), 2, 3, 4]).data[1 * (2 * 2) + (1 * 2 + 1)]? = some 4 :=
  ⟨(C97_identity (α := ℚ) [2] 3 1 2 2 (by decide) (by decide) (by decide)).2, (C97_diag_partial 2 2 [(1 : ℚ), 2, 3, 4] rfl 1 1 1 (by decide) (by decide) (by decide)).2⟩

example : checkIfSingleShape (.list [.list [.int 3], .list [.int 4]]) = .ok false := (C97_single_shape_partial 3 [.int 3] [.list [.int 4]] _ (.inr (.inl rfl))).2.2.2.2.2.1

/-- Non-vacuity of C97. -/
example : (batchedDiagLike 2 [2] [(1 : ℚ), 2, 3, 4]).data = [1, 0, 0, 2, 3, 0, 0, 4] ∧
    (batchedIdentityLike (α := ℚ) [2] 2).data = [1, 0, 0, 1, 1, 0, 0, 1] := by
  decide +kernel

end C97

end Decomon
