import Verif.Model.State
import Mathlib.Algebra.Order.Field.Rat
import Mathlib.Algebra.Order.BigOperators.Group.Finset
import Mathlib.Tactic.Linarith
import Mathlib.Algebra.BigOperators.Field

/-!
Properties C49 (freezing), C50 (constraints), C53 (split of activations, logits) and C82 (the user's model after a conversion).
-/

namespace Decomon

/-! ### C49 -/

section Freeze
variable {ω : Type*}

/-- A forward layer as the user sees it: its kernel and bias, its finetuning weights, or weights of another kind. -/
inductive FwdDesc (ω : Type*)
  | kernel (k : ω) (b : Option ω)
  | act (active : Bool) (alphas : List ω)
  | plain (weights : List ω)

/-- The layer just after `build`. -/
def FwdDesc.fresh : FwdDesc ω → FLayer ω
  | .kernel k b => .kernel k b (kernelInit k b)
  | .act a l => .act a l (alphaInit a l)
  | .plain w => .plain w

/-- Specification: whether the last call among `fr` and `un` was `fr`. -/
def lastIs (fr un : FCmd) (cmds : List FCmd) : Bool := (cmds.filter fun c => c = fr ∨ c = un).getLast? = some fr

/-- Specification: the weights that should be trainable after the calls `cmds`. -/
def FwdDesc.expected (cmds : List FCmd) : FwdDesc ω → List ω
  | .kernel k b => if lastIs .freezeWeights .unfreezeWeights cmds then [] else k :: b.toList
  | .act a l => if a = true ∧ lastIs .freezeAlpha .unfreezeAlpha cmds = false then l else []
  | .plain w => w

/-- The layer with given flags. -/
def FwdDesc.state (wf af : Bool) : FwdDesc ω → FLayer ω
  | .kernel k b => .kernel k b ⟨if wf then [] else k :: b.toList, wf⟩
  | .act a l => .act a l ⟨if a && !af then l else [], af⟩
  | .plain w => .plain w

/-- The flag after one call. -/
def flagStep (fr un : FCmd) (b : Bool) (c : FCmd) : Bool := if c = fr then true else if c = un then false else b

theorem lastIs_eq_foldl (fr un : FCmd) (h : fr ≠ un) (cmds : List FCmd) :
    lastIs fr un cmds = cmds.foldl (flagStep fr un) false := by
  induction cmds using List.reverseRecOn with
  | nil => rfl
  | append_singleton l c ih =>
    rw [List.foldl_append, List.foldl_cons, List.foldl_nil, ← ih]
    unfold lastIs flagStep
    rw [List.filter_append]
    by_cases h1 : c = fr
    · subst h1; simp
    · by_cases h2 : c = un
      · subst h2; simp [Ne.symm h]
      · simp [h1, h2]

theorem fwd_apply (c : FCmd) (wf af : Bool) (d : FwdDesc ω) :
    (d.state wf af).apply c = .ok (d.state (flagStep .freezeWeights .unfreezeWeights wf c) (flagStep .freezeAlpha .unfreezeAlpha af c)) := by
  cases d with
  | kernel k b =>
    cases c <;> cases wf <;> cases b <;>
      simp [FwdDesc.state, FLayer.apply, KernelState.freeze, KernelState.unfreeze, flagStep]
  | act a l =>
    cases c <;> cases af <;> cases a <;>
      simp [FwdDesc.state, FLayer.apply, KernelState.freezeAlpha, KernelState.unfreezeAlpha, flagStep]
  | plain w => cases c <;> simp [FwdDesc.state, FLayer.apply]

theorem fwd_modelApply (c : FCmd) (wf af : Bool) (ds : List (FwdDesc ω)) :
    modelApply c (ds.map (FwdDesc.state wf af)) =
      .ok (ds.map (FwdDesc.state (flagStep .freezeWeights .unfreezeWeights wf c) (flagStep .freezeAlpha .unfreezeAlpha af c))) := by
  induction ds with
  | nil => rfl
  | cons d t ih => simp only [List.map_cons, modelApply, fwd_apply, ih, Except.bind, Except.map]

theorem fwd_modelRun (cmds : List FCmd) (ds : List (FwdDesc ω)) : ∀ wf af,
    modelRun cmds (ds.map (FwdDesc.state wf af)) =
      .ok (ds.map (FwdDesc.state (cmds.foldl (flagStep .freezeWeights .unfreezeWeights) wf)
        (cmds.foldl (flagStep .freezeAlpha .unfreezeAlpha) af))) := by
  induction cmds with
  | nil => intro wf af; rfl
  | cons c t ih => intro wf af; simp only [modelRun, fwd_modelApply, Except.bind, ih, List.foldl_cons]

/-- C49: on a forward model, after every sequence of calls, kernels and biases are in `_trainable_weights` exactly when the last call about
weights is not `freeze_weights`, and the finetuning weights exactly when the last call about alpha is not `freeze_alpha`; the order is that
of `build`.  (A list that the layer does not have yet is read as the one of `build`.)  Missing with respect to the full claim: Keras 3 does
not read this attribute (`C49_keras_refuted`); layers of backward models and batch normalisation, where it fails, see below. -/
theorem C49_forward_partial (cmds : List FCmd) (ds : List (FwdDesc ω)) :
    (modelRun cmds (ds.map FwdDesc.fresh)).map (fun m => m.map FLayer.trainable) = .ok (ds.map (FwdDesc.expected cmds)) := by
  have h0 : ds.map FwdDesc.fresh = ds.map (FwdDesc.state false false) := by
    apply List.map_congr_left
    intro d _
    cases d with
    | kernel k b => rfl
    | act a l => cases a <;> rfl
    | plain w => rfl
  rw [h0, fwd_modelRun]
  simp only [Except.map, List.map_map]
  congr 1
  apply List.map_congr_left
  intro d _
  have e1 := lastIs_eq_foldl .freezeWeights .unfreezeWeights (by decide) cmds
  have e2 := lastIs_eq_foldl .freezeAlpha .unfreezeAlpha (by decide) cmds
  cases d with
  | kernel k b => simp only [Function.comp, FwdDesc.state, FLayer.trainable, FwdDesc.expected, e1]
  | act a l =>
    simp only [Function.comp, FwdDesc.state, FLayer.trainable, FwdDesc.expected, e2]
    cases a <;> cases List.foldl (flagStep FCmd.freezeAlpha FCmd.unfreezeAlpha) false cmds <;> simp
  | plain w => rfl

/-- Example for C49: a dense layer, a sigmoid with finetuning. -/
example : (modelRun [.freezeWeights, .freezeWeights, .freezeAlpha, .unfreezeWeights]
      (([.kernel 1 (some 2), .act true [3, 4]] : List (FwdDesc ℕ)).map FwdDesc.fresh)).map (fun m => m.map FLayer.trainable)
    = .ok [[1, 2], []] := by rfl

/-- C49: a batch normalisation keeps `gamma` and `beta` trainable after `freeze_weights`. -/
theorem C49_batchnorm_refuted (cmds : List FCmd) (w : List ω) :
    (modelRun cmds [FLayer.plain w]).map (fun m => m.map FLayer.trainable) = .ok [w] :=
  C49_forward_partial cmds [.plain w]

/-- C49: a backward dense or convolution never gets its weights back: whatever the kernel and bias, after freeze then unfreeze its list is
empty. -/
theorem C49_back_weights_refuted (k : ω) (b : Option ω) :
    (modelRun [.freezeWeights, .unfreezeWeights] [.backKernel k b (backKernelInit k b)]).map (fun m => m.map FLayer.trainable) = .ok [[]] ∧
      (backKernelInit k b).own.trainable = k :: b.toList := by
  constructor <;> rfl

theorem modelRun_single_error (c : FCmd) (l : FLayer ω) (t : List (FLayer ω)) (e : PyErr) (h : l.apply c = .error e) :
    modelApply c (l :: t) = .error e := by simp only [modelApply, h, Except.bind]

/-- C49: `freeze_alpha` raises AttributeError on every model whose first backward activation has `finetune=False`. -/
theorem C49_back_alpha_attribute_refuted (c : BackActCfg ω) (built grid : List ω) (pre : List (FwdDesc ω)) (post : List (FLayer ω)) :
    modelApply .freezeAlpha (pre.map FwdDesc.fresh ++ .backAct c (backActInit false built grid) :: post) = .error .attributeError := by
  induction pre with
  | nil => rfl
  | cons d t ih =>
    have h : ∃ l, (FwdDesc.fresh d).apply .freezeAlpha = .ok l := by cases d <;> exact ⟨_, rfl⟩
    obtain ⟨l, hl⟩ := h
    simp only [List.map_cons, List.cons_append, modelApply, hl, Except.bind, ih, Except.map]

/-- C49: in ibp mode (the mode of the default method crown) `freeze_alpha` freezes nothing. -/
theorem C49_back_alpha_ibp_refuted (built : List ω) (grid : List ω) (a : Option (List ω)) (s : BackActState ω)
    (hs : s.frozenAlpha = some false) : s.freezeAlpha ⟨false, true, grid, a⟩ = .ok s := by
  simp only [BackActState.freezeAlpha, hs, Bool.and_false]
  rfl

/-- C49: with a grid domain, `freeze_alpha` keeps alpha and drops a grid weight: alpha is created first but the code keeps the first two.
`freeze_grid` drops alpha and a grid weight, and after `unfreeze_grid` alpha is lost and a grid weight is there twice. -/
theorem C49_grid_refuted (al neg pos : ω) :
    (backActInit true [al] [pos, neg]).freezeAlpha ⟨true, true, [neg, pos], some [al]⟩ = .ok ⟨[al, pos], some true, false⟩ ∧
      (backActInit true [al] [pos, neg]).freezeGrid ⟨true, true, [neg, pos], some [al]⟩ = ⟨[neg], some false, true⟩ ∧
      ((backActInit true [al] [pos, neg]).freezeGrid ⟨true, true, [neg, pos], some [al]⟩).unfreezeGrid ⟨true, true, [neg, pos], some [al]⟩
        = ⟨[neg, pos, neg], some false, false⟩ := by
  refine ⟨rfl, rfl, rfl⟩

/-- C49: a backward activation of a box or ball in affine or hybrid mode with finetuning: after every sequence of calls no exception, and
its weights are those of `build` up to the order, or none if the last call about alpha is `freeze_alpha`. -/
theorem C49_back_alpha_partial (cmds : List FCmd) (built alphas : List ω) (hp : alphas.Perm built) :
    ∃ s : BackActState ω, modelRun cmds [.backAct ⟨true, true, [], some alphas⟩ (backActInit true built [])] =
        .ok [.backAct ⟨true, true, [], some alphas⟩ s] ∧
      s.trainable.Perm (if lastIs .freezeAlpha .unfreezeAlpha cmds then [] else built) := by
  rw [lastIs_eq_foldl .freezeAlpha .unfreezeAlpha (by decide)]
  have key : ∀ (cmds : List FCmd) (b : Bool) (s : BackActState ω), s.frozenAlpha = some b → s.trainable.Perm (if b then [] else built) →
      ∃ s' : BackActState ω, modelRun cmds [.backAct ⟨true, true, [], some alphas⟩ s] = .ok [.backAct ⟨true, true, [], some alphas⟩ s'] ∧
        s'.trainable.Perm (if cmds.foldl (flagStep .freezeAlpha .unfreezeAlpha) b then [] else built) := by
    intro cmds
    induction cmds with
    | nil => intro b s _ h; exact ⟨s, rfl, h⟩
    | cons c t ih =>
      intro b s hb hs
      have step : ∃ s1 : BackActState ω, (FLayer.backAct ⟨true, true, [], some alphas⟩ s).apply c =
          .ok (.backAct ⟨true, true, [], some alphas⟩ s1) ∧ s1.frozenAlpha = some (flagStep .freezeAlpha .unfreezeAlpha b c) ∧
          s1.trainable.Perm (if flagStep .freezeAlpha .unfreezeAlpha b c then [] else built) := by
        cases c
        · exact ⟨s, rfl, by simpa [flagStep] using hb, by simpa [flagStep] using hs⟩
        · exact ⟨s, rfl, by simpa [flagStep] using hb, by simpa [flagStep] using hs⟩
        · cases b
          · exact ⟨{ s with trainable := [], frozenAlpha := some true }, by
              simp [FLayer.apply, BackActState.freezeAlpha, hb, Except.map], by simp [flagStep], by simp [flagStep]⟩
          · exact ⟨s, by simp [FLayer.apply, BackActState.freezeAlpha, hb, Except.map], by simpa [flagStep] using hb, by
              simpa [flagStep] using hs⟩
        · cases b
          · exact ⟨s, by simp [FLayer.apply, BackActState.unfreezeAlpha, hb, Except.map], by simpa [flagStep] using hb, by
              simpa [flagStep] using hs⟩
          · refine ⟨{ s with trainable := s.trainable ++ alphas, frozenAlpha := some false }, by
              simp [FLayer.apply, BackActState.unfreezeAlpha, hb, Except.map], by simp [flagStep], ?_⟩
            have : s.trainable = [] := by simpa using hs
            simpa [flagStep, this] using hp
      obtain ⟨s1, e1, hb1, hs1⟩ := step
      obtain ⟨s2, e2, hs2⟩ := ih _ s1 hb1 hs1
      exact ⟨s2, by simp only [modelRun, modelApply, e1, Except.bind, Except.map]; exact e2, hs2⟩
  exact key cmds false _ rfl (by simp [backActInit])

theorem kerasApply_variables (c : FCmd) : ∀ m m' : List (TrackedLayer ω), kerasApply c m = .ok m' →
    m'.map TrackedLayer.vars = m.map TrackedLayer.vars
  | [], m', h => by simp only [kerasApply, Except.ok.injEq] at h; subst h; rfl
  | l :: t, m', h => by
    simp only [kerasApply] at h
    cases hl : l.state.apply c with
    | error e => rw [hl] at h; simp [Except.bind] at h
    | ok s =>
      rw [hl] at h
      cases ht : kerasApply c t with
      | error e => rw [ht] at h; simp [Except.bind, Except.map] at h
      | ok t' =>
        rw [ht] at h
        simp only [Except.bind, Except.map, Except.ok.injEq] at h
        subst h
        simp [kerasApply_variables c t t' ht]

/-- C49: whatever the layers (of forward or backward models, batch normalisations) and the calls, as long as no call raises, the weights
that Keras 3 trains are the same and in the same order as before: `unfreeze_weights` after `freeze_weights` restores the list, and repeating
a call changes nothing.  Missing with respect to the full claim: that `freeze_weights` removes anything (`C49_keras_refuted`). -/
theorem C49_keras_partial (cmds : List FCmd) (m m' : List (TrackedLayer ω)) (h : kerasRun cmds m = .ok m') :
    m'.map TrackedLayer.trainableWeights = m.map TrackedLayer.trainableWeights := by
  have key : ∀ (cmds : List FCmd) (m : List (TrackedLayer ω)), kerasRun cmds m = .ok m' →
      m'.map TrackedLayer.vars = m.map TrackedLayer.vars := by
    intro cmds
    induction cmds with
    | nil => intro m h; simp only [kerasRun, Except.ok.injEq] at h; rw [h]
    | cons c t ih =>
      intro m h
      simp only [kerasRun] at h
      cases hm : kerasApply c m with
      | error e => rw [hm] at h; simp [Except.bind] at h
      | ok m1 =>
        rw [hm] at h
        exact (ih m1 h).trans (kerasApply_variables c m m1 hm)
  have h2 := congrArg (List.map fun v : List (ω × Bool) => (v.filter fun x => x.2).map Prod.fst) (key cmds m h)
  rw [List.map_map, List.map_map] at h2
  exact h2

/-- C49: under Keras 3 `freeze_weights` freezes nothing: on a model made of layers with kernels (forward or backward), it raises nothing,
sets `frozen_weights`, empties the attribute `_trainable_weights`, and every kernel and bias is still trained. -/
theorem C49_keras_refuted (ls : List (Bool × ω × Option ω)) :
    let fresh : List (TrackedLayer ω) := ls.map fun l =>
      ⟨kernelVariables l.2.1 l.2.2, if l.1 then .backKernel l.2.1 l.2.2 (backKernelInit l.2.1 l.2.2) else .kernel l.2.1 l.2.2 (kernelInit l.2.1 l.2.2)⟩
    ∃ m', kerasRun [.freezeWeights] fresh = .ok m' ∧ (∀ l ∈ m', l.state.trainable = []) ∧
      m'.map TrackedLayer.trainableWeights = ls.map fun l => l.2.1 :: l.2.2.toList := by
  intro fresh
  have h : kerasApply .freezeWeights fresh = .ok (ls.map fun l =>
      ⟨kernelVariables l.2.1 l.2.2, if l.1 then .backKernel l.2.1 l.2.2 ⟨⟨[], true⟩, ⟨[], true⟩⟩ else .kernel l.2.1 l.2.2 ⟨[], true⟩⟩) := by
    simp only [fresh]
    clear fresh
    induction ls with
    | nil => rfl
    | cons l t ih =>
      obtain ⟨b, k, o⟩ := l
      cases b <;> simp only [List.map_cons, kerasApply, ih] <;> rfl
  refine ⟨_, by simp only [kerasRun, h]; rfl, ?_, ?_⟩
  · intro l hl
    obtain ⟨⟨b, k, o⟩, -, rfl⟩ := List.mem_map.mp hl
    cases b <;> rfl
  · rw [List.map_map]
    refine List.map_congr_left fun l _ => ?_
    have : ∀ v : List ω, ((v.map fun x => (x, true)).filter fun x => x.2).map Prod.fst = v := by
      intro v; induction v with
      | nil => rfl
      | cons a v ih => simp [ih]
    exact this _

/-- Example for C49: a dense layer and a backward one; both are still trained. -/
example : (kerasRun [.freezeWeights] [⟨kernelVariables 1 (some 2), .kernel 1 (some 2) (kernelInit 1 (some 2))⟩,
      ⟨kernelVariables 3 none, .backKernel 3 none (backKernelInit 3 none)⟩]).map (fun m => m.map TrackedLayer.trainableWeights)
    = .ok [[1, 2], [3]] := rfl

/-- Example for C49: the weights of `build` and of `unfreeze_alpha` are in a different order. -/
example : modelRun [.freezeAlpha, .unfreezeAlpha] [FLayer.backAct ⟨true, true, [], some ["u", "l"]⟩ (backActInit true ["l", "u"] [])]
    = .ok [.backAct ⟨true, true, [], some ["u", "l"]⟩ ⟨["u", "l"], some false, false⟩] := rfl

end Freeze

/-! ### C50 -/

section Constraint
variable {α : Type*} [Field α] [LinearOrder α] [IsStrictOrderedRing α]

/-- C50: `NonPos` gives the nearest non-positive number. -/
theorem C50_nonPos (w : α) : nonPos w ≤ 0 ∧ ∀ v ≤ 0, |nonPos w - w| ≤ |v - w| := by
  refine ⟨min_le_right _ _, fun v hv => ?_⟩
  rcases le_total w 0 with h | h
  · simp [nonPos, min_eq_left h]
  · rw [nonPos, min_eq_right h, zero_sub, abs_neg, abs_of_nonneg h, abs_of_nonpos (by linarith)]; linarith

/-- C50: `NonNeg` gives the nearest non-negative number. -/
theorem C50_nonNeg (w : α) : 0 ≤ nonNeg w ∧ ∀ v, 0 ≤ v → |nonNeg w - w| ≤ |v - w| := by
  refine ⟨le_max_right _ _, fun v hv => ?_⟩
  rcases le_total 0 w with h | h
  · simp [nonNeg, max_eq_left h]
  · rw [nonNeg, max_eq_right h, zero_sub, abs_neg, abs_of_nonpos h, abs_of_nonneg (by linarith)]; linarith

theorem clipAlpha_mem (w : α) : 0 ≤ clipAlpha w ∧ clipAlpha w ≤ 1 :=
  ⟨le_min (le_max_right _ _) zero_le_one, min_le_right _ _⟩

theorem clipAlpha_of_mem {w : α} (h0 : 0 ≤ w) (h1 : w ≤ 1) : clipAlpha w = w := by
  rw [clipAlpha, max_eq_left h0, min_eq_left h1]

/-- C50: `ClipAlpha` gives the nearest number of [0,1]. -/
theorem C50_clip (w : α) : (0 ≤ clipAlpha w ∧ clipAlpha w ≤ 1) ∧ ∀ v, 0 ≤ v → v ≤ 1 → |clipAlpha w - w| ≤ |v - w| := by
  refine ⟨clipAlpha_mem w, fun v h0 h1 => ?_⟩
  rcases le_total w 0 with h | h
  · have e : clipAlpha w = 0 := by rw [clipAlpha, max_eq_right h, min_eq_left zero_le_one]
    rw [e, zero_sub, abs_neg, abs_of_nonpos h, abs_of_nonneg (by linarith)]; linarith
  · rcases le_total w 1 with h' | h'
    · rw [clipAlpha_of_mem h h']; simp
    · have e : clipAlpha w = 1 := by rw [clipAlpha, max_eq_left h, min_eq_right h']
      rw [e, abs_of_nonpos (by linarith), abs_of_nonpos (by linarith)]; linarith

/-- C50: `ClipAlphaGrid` gives entries in [0,1] whose sum over the first axis is at most one, and changes nothing when this already holds. -/
theorem C50_grid {ι κ : Type*} [Fintype ι] (w : ι → κ → α) :
    (∀ i k, 0 ≤ clipAlphaGrid w i k ∧ clipAlphaGrid w i k ≤ 1) ∧ (∀ k, ∑ i, clipAlphaGrid w i k ≤ 1) ∧
      ((∀ i k, 0 ≤ w i k ∧ w i k ≤ 1) → (∀ k, ∑ i, w i k ≤ 1) → clipAlphaGrid w = w) := by
  have hpos : ∀ k, 0 < max (∑ j, clipAlpha (w j k)) 1 := fun k => lt_of_lt_of_le zero_lt_one (le_max_right _ _)
  refine ⟨fun i k => ⟨div_nonneg (clipAlpha_mem _).1 (hpos k).le, ?_⟩, fun k => ?_, fun h hs => ?_⟩
  · rw [clipAlphaGrid, div_le_one (hpos k)]
    exact (clipAlpha_mem _).2.trans (le_max_right _ _)
  · simp only [clipAlphaGrid]
    rw [← Finset.sum_div, div_le_one (hpos k)]
    exact le_max_left _ _
  · funext i k
    have e : ∀ j, clipAlpha (w j k) = w j k := fun j => clipAlpha_of_mem (h j k).1 (h j k).2
    simp only [clipAlphaGrid, e]
    rw [max_eq_right (hs k), div_one]

/-- C50: projecting twice changes nothing. -/
theorem C50_idempotent {ι κ : Type*} [Fintype ι] (w : ι → κ → α) (v : α) :
    nonPos (nonPos v) = nonPos v ∧ nonNeg (nonNeg v) = nonNeg v ∧ clipAlpha (clipAlpha v) = clipAlpha v ∧
      clipAlphaGrid (clipAlphaGrid w) = clipAlphaGrid w := by
  refine ⟨by simp [nonPos], by simp [nonNeg], clipAlpha_of_mem (clipAlpha_mem v).1 (clipAlpha_mem v).2, ?_⟩
  have h := C50_grid w
  exact (C50_grid (clipAlphaGrid w)).2.2 h.1 h.2.1

/-- Example for C50: a column with sum above one. -/
example : clipAlphaGrid (fun (i : Fin 3) (_ : Unit) => ![(2 : ℚ), 1 / 2, -1] i) 0 () = 2 / 3 := by decide +kernel

theorem broadcastOpt_length : ∀ a b l, broadcastOpt a b = some l → l.length = max a.length b.length
  | [], b, l, h => by simp only [broadcastOpt, Option.some.injEq] at h; subst h; simp
  | a :: s, [], l, h => by simp only [broadcastOpt, Option.some.injEq] at h; subst h; simp
  | a :: s, b :: t, l, h => by
    rw [broadcastOpt] at h
    split at h
    · rw [Option.map_eq_some_iff] at h
      obtain ⟨r, hr, rfl⟩ := h
      simp [broadcastOpt_length s t r hr]
    · split at h
      · rw [Option.map_eq_some_iff] at h
        obtain ⟨r, hr, rfl⟩ := h
        simp [broadcastOpt_length s t r hr]
      · simp at h

/-- C50: `ClipAlphaAndSumtoOne` never gives back a tensor of the shape of the weight: it raises, or the result has two axes more. -/
theorem C50_sumtoone_refuted (s s' : List ℕ) (h : clipSumShape s = .ok s') : s'.length = s.length + 2 := by
  match s, h with
  | [], h => simp [clipSumShape] at h
  | [n], h => simp [clipSumShape] at h
  | n :: m :: t, h =>
    simp only [clipSumShape] at h
    split at h
    · rename_i l hl
      cases h
      have := broadcastOpt_length _ _ _ hl
      simp at this ⊢
      omega
    · simp at h

theorem broadcastOpt_same (l a b : List ℕ) : broadcastOpt (l ++ a) (l ++ b) = (broadcastOpt a b).map (l ++ ·) := by
  induction l with
  | nil => simp
  | cons x l ih => simp [broadcastOpt, ih, Option.map_map, Function.comp_def]

/-- C50: `ClipAlphaAndSumtoOne` on a weight with at least two axes gives a tensor in which the second axis comes twice: nothing raises, and no
training step can put the result back in the weight. -/
theorem C50_sumtoone_shape_refuted (n m : ℕ) (t : List ℕ) : clipSumShape (n :: m :: t) = .ok (m :: 1 :: n :: m :: t) := by
  have h : broadcastOpt (n :: m :: t).reverse (m :: 1 :: 1 :: 1 :: t).reverse = some (m :: 1 :: n :: m :: t).reverse := by
    simp only [List.reverse_cons, List.append_assoc, List.singleton_append, List.cons_append, List.nil_append]
    rw [broadcastOpt_same]
    simp [broadcastOpt]
  simp only [clipSumShape, h, List.reverse_reverse]

/-- Example for C50: a (2,3) weight becomes a (3,1,2,3) one. -/
example : clipSumShape [2, 3] = .ok [3, 1, 2, 3] := by decide +kernel

/-- C50: `MultipleConstraint`: the result meets the second constraint, and the first one when the second keeps it.
Missing with respect to the full claim: `ClipAlphaAndSumtoOne`, refuted above. -/
theorem C50_multiple_partial {β : Type*} (c0 c1 : β → β) (P Q : β → Prop) (h0 : ∀ w, P (c0 w)) (h1 : ∀ w, Q (c1 w))
    (hk : ∀ w, P w → P (c1 w)) (w : β) :
    Q (multipleConstraint (some c0) c1 w) ∧ P (multipleConstraint (some c0) c1 w) ∧ Q (multipleConstraint none c1 w) :=
  ⟨h1 _, hk _ (h0 w), h1 w⟩

/-- Example for C50: `NonPos` then `ClipAlpha` gives zero. -/
example : multipleConstraint (some nonPos) clipAlpha (3 : ℚ) = 0 ∧ multipleConstraint none clipAlpha (3 : ℚ) = 1 := by
  constructor <;> decide +kernel

/-- C50: the projected initializers have the sign they should, and keep a value that has it. -/
theorem C50_initializers (w : α) : 0 ≤ projectPos w ∧ projectNeg w ≤ 0 ∧ projectPos w + projectNeg w = w := by
  refine ⟨le_max_left _ _, min_le_left _ _, ?_⟩
  rcases le_total 0 w with h | h
  · rw [projectPos, projectNeg, max_eq_right h, min_eq_left h, add_zero]
  · rw [projectPos, projectNeg, max_eq_left h, min_eq_right h, zero_add]

end Constraint

/-! ### C53, C82 -/

section Objects
variable {V : Type*}

/-- Specification: what a layer object computes; `I` gives the meaning of the names of activations. -/
def LayerObj.fn (I : String → V → V) (o : LayerObj V) (x : V) : V :=
  match o.act with
  | none => o.core x
  | some a => I a (o.core x)

/-- Specification: what a chain of layer objects computes. -/
def chainFn (I : String → V → V) (h : Heap V) (chain : List ℕ) (x : V) : V := chain.foldl (fun y i => (h.obj i).fn I y) x

/-- `h'` has the objects of `h`, up to their names. -/
def SameUpToNames (h h' : Heap V) : Prop :=
  h.next ≤ h'.next ∧ ∀ i < h.next, (h'.obj i).act = (h.obj i).act ∧ (h'.obj i).core = (h.obj i).core ∧
    (h'.obj i).isActivation = (h.obj i).isActivation

theorem SameUpToNames.refl (h : Heap V) : SameUpToNames h h := ⟨le_rfl, fun _ _ => ⟨rfl, rfl, rfl⟩⟩

theorem SameUpToNames.trans {h1 h2 h3 : Heap V} (a : SameUpToNames h1 h2) (b : SameUpToNames h2 h3) : SameUpToNames h1 h3 :=
  ⟨a.1.trans b.1, fun i hi => by
    have := a.2 i hi
    have := b.2 i (hi.trans_le a.1)
    simp_all⟩

theorem SameUpToNames.fn {h h' : Heap V} (a : SameUpToNames h h') (I : String → V → V) {i : ℕ} (hi : i < h.next) :
    (h'.obj i).fn I = (h.obj i).fn I := by
  funext x
  obtain ⟨h1, h2, -⟩ := a.2 i hi
  simp only [LayerObj.fn, h1, h2]

theorem SameUpToNames.chain {h h' : Heap V} (a : SameUpToNames h h') (I : String → V → V) (l : List ℕ) (hl : ∀ i ∈ l, i < h.next) (x : V) :
    chainFn I h' l x = chainFn I h l x := by
  induction l generalizing x with
  | nil => rfl
  | cons i t ih =>
    simp only [chainFn, List.foldl_cons] at *
    rw [a.fn I (hl i (by simp))]
    exact ih (fun j hj => hl j (by simp [hj])) _

theorem chainFn_append (I : String → V → V) (h : Heap V) (a b : List ℕ) (x : V) :
    chainFn I h (a ++ b) x = chainFn I h b (chainFn I h a x) := by simp [chainFn, List.foldl_append]

theorem rename_same (h : Heap V) : ∀ (l : List ℕ) (count : ℕ), SameUpToNames h (renameAll h count l).1 := by
  intro l
  induction l generalizing h with
  | nil => intro c; exact .refl h
  | cons i t ih =>
    intro c
    refine SameUpToNames.trans ?_ (ih _ _)
    refine ⟨le_rfl, fun j _ => ?_⟩
    by_cases e : j = i
    · subst e; simp
    · simp [Function.update_of_ne e]

theorem split_same (h : Heap V) (i : ℕ) : SameUpToNames h (splitActivation h i).1 := by
  unfold splitActivation
  split
  · exact .refl h
  · split
    · exact .refl h
    · refine ⟨by simp, fun j hj => ?_⟩
      have h1 : j ≠ h.next := by omega
      have h2 : j ≠ h.next + 1 := by omega
      simp [Function.update_of_ne h1, Function.update_of_ne h2]

theorem split_mem (h : Heap V) (i : ℕ) (hi : i < h.next) : ∀ j ∈ (splitActivation h i).2, j < (splitActivation h i).1.next := by
  unfold splitActivation
  split
  · simpa using hi
  · split
    · simpa using hi
    · intro j hj
      simp at hj ⊢
      omega

theorem split_fn (I : String → V → V) (hlin : I "linear" = id) (h : Heap V) (i : ℕ) (x : V) :
    chainFn I (splitActivation h i).1 (splitActivation h i).2 x = (h.obj i).fn I x := by
  unfold splitActivation
  split
  · simp [chainFn]
  · rename_i a ha
    split
    · simp [chainFn]
    · have e : h.next ≠ h.next + 1 := by omega
      simp [chainFn, LayerObj.fn, Function.update_of_ne e, hlin, ha]

/-- What a cache must satisfy. -/
def GoodCache (I : String → V → V) (h0 h : Heap V) (cache : ℕ → Option (List ℕ)) : Prop :=
  ∀ i l, cache i = some l → (∀ j ∈ l, j < h.next) ∧ i < h0.next ∧ ∀ x, chainFn I h l x = (h0.obj i).fn I x

theorem GoodCache.mono {I : String → V → V} {h0 h h' : Heap V} {cache : ℕ → Option (List ℕ)} (g : GoodCache I h0 h cache)
    (s : SameUpToNames h h') : GoodCache I h0 h' cache := fun i l e => by
  obtain ⟨a, b, c⟩ := g i l e
  exact ⟨fun j hj => (a j hj).trans_le s.1, b, fun x => by rw [s.chain I l a]; exact c x⟩

theorem converted_spec (I : String → V → V) (hlin : I "linear" = id) (h0 h : Heap V) (cache : ℕ → Option (List ℕ)) (s : SameUpToNames h0 h)
    (g : GoodCache I h0 h cache) (i : ℕ) (hi : i < h0.next) :
    SameUpToNames h (convertedOf h cache i).1 ∧ (∀ j ∈ (convertedOf h cache i).2, j < (convertedOf h cache i).1.next) ∧
      ∀ x, chainFn I (convertedOf h cache i).1 (convertedOf h cache i).2 x = (h0.obj i).fn I x := by
  unfold convertedOf
  cases hc : cache i with
  | some l => exact ⟨.refl h, (g i l hc).1, (g i l hc).2.2⟩
  | none => exact ⟨split_same h i, split_mem h i (hi.trans_le s.1), fun x => by rw [split_fn I hlin, s.fn I hi]⟩

theorem cloneStep_spec (I : String → V → V) (hlin : I "linear" = id) (h0 : Heap V) (st : CloneState V) (i : ℕ) (hi : i < h0.next)
    (s : SameUpToNames h0 st.heap) (g : GoodCache I h0 st.heap st.cache) :
    SameUpToNames st.heap (cloneStep st i).1.heap ∧ (∀ j ∈ (cloneStep st i).2, j < (cloneStep st i).1.heap.next) ∧
      GoodCache I h0 (cloneStep st i).1.heap (cloneStep st i).1.cache ∧
      ∀ x, chainFn I (cloneStep st i).1.heap (cloneStep st i).2 x = (h0.obj i).fn I x := by
  obtain ⟨s1, m1, f1⟩ := converted_spec I hlin h0 st.heap st.cache s g i hi
  have s2 := rename_same (convertedOf st.heap st.cache i).1 (convertedOf st.heap st.cache i).2 st.count
  have f2 : ∀ x, chainFn I (cloneStep st i).1.heap (cloneStep st i).2 x = (h0.obj i).fn I x := fun x => by
    simp only [cloneStep]
    rw [s2.chain I _ m1, f1]
  refine ⟨s1.trans s2, fun k hk => (m1 k hk).trans_le s2.1, ?_, f2⟩
  intro j l e
  simp only [cloneStep] at e
  by_cases ej : j = i
  · subst ej
    rw [Function.update_self] at e
    cases e
    exact ⟨fun k hk => (m1 k hk).trans_le s2.1, hi, f2⟩
  · rw [Function.update_of_ne ej] at e
    exact (g.mono (s1.trans s2)) j l e

theorem cloneLoop_spec (I : String → V → V) (hlin : I "linear" = id) (h0 : Heap V) : ∀ (chain : List ℕ) (st : CloneState V),
    (∀ i ∈ chain, i < h0.next) → SameUpToNames h0 st.heap → GoodCache I h0 st.heap st.cache →
    SameUpToNames st.heap (cloneLoop chain st).1.heap ∧ (∀ j ∈ (cloneLoop chain st).2, j < (cloneLoop chain st).1.heap.next) ∧
      GoodCache I h0 (cloneLoop chain st).1.heap (cloneLoop chain st).1.cache ∧
      ∀ x, chainFn I (cloneLoop chain st).1.heap (cloneLoop chain st).2 x = chainFn I h0 chain x := by
  intro chain
  induction chain with
  | nil => intro st _ _ g; exact ⟨.refl _, by simp [cloneLoop], g, fun x => rfl⟩
  | cons i t ih =>
    intro st hm s g
    obtain ⟨s1, m1, g1, f1⟩ := cloneStep_spec I hlin h0 st i (hm i (by simp)) s g
    obtain ⟨s3, m3, g3, f3⟩ := ih (cloneStep st i).1 (fun j hj => hm j (by simp [hj])) (s.trans s1) g1
    refine ⟨s1.trans s3, ?_, g3, fun x => ?_⟩
    · intro j hj
      simp only [cloneLoop, List.mem_append] at hj ⊢
      rcases hj with hj | hj
      · exact (m1 j hj).trans_le s3.1
      · exact m3 j hj
    · simp only [cloneLoop]
      rw [chainFn_append, f3, s3.chain I _ m1, f1]
      rfl

theorem goodCache_empty (I : String → V → V) (h0 h : Heap V) : GoodCache I h0 h fun _ => none := fun i l e => by simp at e

/-- C53: splitting the activations keeps the function of the network, for every chain of layers, shared ones included; and the layers of
the user's model compute what they did. -/
theorem C53_split (I : String → V → V) (hlin : I "linear" = id) (h : Heap V) (chain : List ℕ) (hm : ∀ i ∈ chain, i < h.next) (x : V) :
    chainFn I (preprocessChain h chain).1 (preprocessChain h chain).2 x = chainFn I h chain x ∧
      chainFn I (preprocessChain h chain).1 chain x = chainFn I h chain x := by
  obtain ⟨s, -, -, f⟩ := cloneLoop_spec I hlin h chain ⟨h, 0, fun _ => none⟩ hm (.refl h) (goodCache_empty I h h)
  exact ⟨f x, s.chain I chain hm x⟩

theorem cloneLoop_append (a b : List ℕ) (st : CloneState V) :
    cloneLoop (a ++ b) st = ((cloneLoop b (cloneLoop a st).1).1, (cloneLoop a st).2 ++ (cloneLoop b (cloneLoop a st).1).2) := by
  induction a generalizing st with
  | nil => simp [cloneLoop]
  | cons i t ih => simp only [List.cons_append, cloneLoop, ih, List.append_assoc]

/-- Where the converted objects of a layer live: the layer itself if nothing is split, else objects that did not exist. -/
def Placed (h0 : Heap V) (i : ℕ) (l : List ℕ) : Prop :=
  (l = [i] ∧ ((h0.obj i).act = none ∨ (h0.obj i).act = some "linear" ∨ (h0.obj i).isActivation = true)) ∨
    ∃ n, h0.next ≤ n ∧ l = [n, n + 1]

theorem split_placed (h0 h : Heap V) (s : SameUpToNames h0 h) (i : ℕ) (hi : i < h0.next) : Placed h0 i (splitActivation h i).2 := by
  obtain ⟨e1, -, e3⟩ := s.2 i hi
  unfold splitActivation
  split
  · rename_i hn
    exact .inl ⟨rfl, .inl (e1 ▸ hn)⟩
  · rename_i a ha
    split
    · rename_i hc
      refine .inl ⟨rfl, .inr ?_⟩
      rcases hc with rfl | hc
      · exact .inl (e1 ▸ ha)
      · exact .inr (e3 ▸ hc)
    · exact .inr ⟨h.next, s.1, rfl⟩

theorem cloneStep_same (st : CloneState V) (i : ℕ) : SameUpToNames st.heap (cloneStep st i).1.heap := by
  have : SameUpToNames st.heap (convertedOf st.heap st.cache i).1 := by
    unfold convertedOf
    split
    · exact .refl _
    · exact split_same _ _
  exact this.trans (rename_same _ _ _)

theorem cloneStep_placed (h0 : Heap V) (st : CloneState V) (s : SameUpToNames h0 st.heap)
    (g : ∀ i l, st.cache i = some l → Placed h0 i l) (i : ℕ) (hi : i < h0.next) :
    Placed h0 i (cloneStep st i).2 ∧ ∀ j l, (cloneStep st i).1.cache j = some l → Placed h0 j l := by
  have h1 : Placed h0 i (cloneStep st i).2 := by
    simp only [cloneStep, convertedOf]
    split
    · rename_i l hl; exact g i l hl
    · exact split_placed h0 st.heap s i hi
  refine ⟨h1, fun j l e => ?_⟩
  by_cases ej : j = i
  · subst ej
    have : (cloneStep st j).1.cache j = some (cloneStep st j).2 := by simp [cloneStep]
    rw [this] at e; cases e; exact h1
  · have : (cloneStep st i).1.cache j = st.cache j := by simp [cloneStep, Function.update_of_ne ej]
    rw [this] at e; exact g j l e

theorem cloneLoop_placed (h0 : Heap V) : ∀ (chain : List ℕ) (st : CloneState V), (∀ i ∈ chain, i < h0.next) → SameUpToNames h0 st.heap →
    (∀ i l, st.cache i = some l → Placed h0 i l) →
    SameUpToNames h0 (cloneLoop chain st).1.heap ∧ ∀ i l, (cloneLoop chain st).1.cache i = some l → Placed h0 i l := by
  intro chain
  induction chain with
  | nil => intro st _ s g; exact ⟨s, g⟩
  | cons i t ih =>
    intro st hm s g
    exact ih _ (fun j hj => hm j (by simp [hj])) (s.trans (cloneStep_same st i)) (cloneStep_placed h0 st s g i (hm i (by simp))).2

/-- Facts used for a layer `k` that has not been met: it is not converted yet and is no converted object. -/
def Unmet (k : ℕ) (st : CloneState V) : Prop :=
  st.cache k = none ∧ ∀ i l, st.cache i = some l → ∀ j ∈ l, j ≠ k ∧ j < st.heap.next

theorem cloneStep_unmet (h0 : Heap V) (k : ℕ) (hk : k < h0.next) (st : CloneState V) (s : SameUpToNames h0 st.heap) (u : Unmet k st) (i : ℕ)
    (hi : i < h0.next) (hne : i ≠ k) :
    Unmet k (cloneStep st i).1 ∧ ∀ j ∈ (cloneStep st i).2, j ≠ k ∧ j < (cloneStep st i).1.heap.next := by
  have hs := cloneStep_same st i
  have h1 : ∀ j ∈ (cloneStep st i).2, j ≠ k ∧ j < (cloneStep st i).1.heap.next := by
    intro j hj
    have hn : (cloneStep st i).1.heap.next = (renameAll (convertedOf st.heap st.cache i).1 st.count (convertedOf st.heap st.cache i).2).1.next := rfl
    have hr := (rename_same (convertedOf st.heap st.cache i).1 (convertedOf st.heap st.cache i).2 st.count).1
    simp only [cloneStep] at hj ⊢
    unfold convertedOf at hj hr ⊢
    cases hc : st.cache i with
    | some l =>
      rw [hc] at hj hr
      exact ⟨(u.2 i l hc j hj).1, (u.2 i l hc j hj).2.trans_le hr⟩
    | none =>
      rw [hc] at hj hr
      refine ⟨?_, (split_mem st.heap i (hi.trans_le s.1) j hj).trans_le hr⟩
      have hp := split_placed st.heap st.heap (.refl _) i (hi.trans_le s.1)
      rcases hp with ⟨e, -⟩ | ⟨n, hn', e⟩
      · rw [e] at hj; simp at hj; rw [hj]; exact hne
      · rw [e] at hj; have := s.1; simp at hj; omega
  refine ⟨⟨?_, fun j l e => ?_⟩, h1⟩
  · have : (cloneStep st i).1.cache k = st.cache k := by simp [cloneStep, Function.update_of_ne (Ne.symm hne)]
    rw [this]; exact u.1
  · by_cases ej : j = i
    · subst ej
      have : (cloneStep st j).1.cache j = some (cloneStep st j).2 := by simp [cloneStep]
      rw [this] at e; cases e; exact h1
    · have : (cloneStep st i).1.cache j = st.cache j := by simp [cloneStep, Function.update_of_ne ej]
      rw [this] at e
      exact fun q hq => ⟨(u.2 j l e q hq).1, (u.2 j l e q hq).2.trans_le hs.1⟩

theorem cloneLoop_unmet (h0 : Heap V) (k : ℕ) (hk : k < h0.next) : ∀ (chain : List ℕ) (st : CloneState V), (∀ i ∈ chain, i < h0.next) →
    k ∉ chain → SameUpToNames h0 st.heap → Unmet k st →
    SameUpToNames st.heap (cloneLoop chain st).1.heap ∧ Unmet k (cloneLoop chain st).1 ∧
      ∀ j ∈ (cloneLoop chain st).2, j ≠ k ∧ j < (cloneLoop chain st).1.heap.next := by
  intro chain
  induction chain with
  | nil => intro st _ _ _ u; exact ⟨.refl _, u, by simp [cloneLoop]⟩
  | cons i t ih =>
    intro st hm hnot s u
    have hs := cloneStep_same st i
    obtain ⟨u1, m1⟩ := cloneStep_unmet h0 k hk st s u i (hm i (by simp)) (by intro e; apply hnot; simp [e])
    obtain ⟨s2, u2, m2⟩ := ih (cloneStep st i).1 (fun j hj => hm j (by simp [hj])) (fun h => hnot (by simp [h])) (s.trans hs) u1
    refine ⟨hs.trans s2, u2, fun j hj => ?_⟩
    simp only [cloneLoop, List.mem_append] at hj
    rcases hj with hj | hj
    · exact ⟨(m1 j hj).1, (m1 j hj).2.trans_le s2.1⟩
    · exact m2 j hj

theorem chainFn_setLinear (I : String → V → V) (h : Heap V) (j : ℕ) (l : List ℕ) (hj : j ∉ l) (x : V) :
    chainFn I (setLinear h j) l x = chainFn I h l x := by
  induction l generalizing x with
  | nil => rfl
  | cons i t ih =>
    simp only [chainFn, setLinear, List.foldl_cons] at *
    have hij : i ≠ j := by intro e; apply hj; simp [e]
    rw [Function.update_of_ne hij]
    exact ih (fun h => hj (by simp [h])) _

theorem softmaxToLinear_last (h : Heap V) (l : List ℕ) (j : ℕ) :
    softmaxToLinear h (l ++ [j]) =
      if (h.obj j).act = some "softmax" then setLinear h j else h := by
  simp [softmaxToLinear]

theorem cloneStep_softmax (I : String → V → V) (hlin : I "linear" = id) (st : CloneState V) (k : ℕ) (hc : st.cache k = none)
    (hs : (st.heap.obj k).act = some "softmax") :
    ∃ l j, (cloneStep st k).2 = l ++ [j] ∧ (j = k ∨ st.heap.next ≤ j) ∧ ((cloneStep st k).1.heap.obj j).act = some "softmax" ∧
      ∀ x, chainFn I (setLinear (cloneStep st k).1.heap j) (l ++ [j]) x = (st.heap.obj k).core x := by
  by_cases ha : (st.heap.obj k).isActivation = true
  · have e : splitActivation st.heap k = (st.heap, [k]) := by simp [splitActivation, hs, ha]
    refine ⟨[], k, ?_, .inl rfl, ?_, fun x => ?_⟩
    · simp [cloneStep, convertedOf, hc, e]
    · simp [cloneStep, convertedOf, hc, e, renameAll, hs]
    · simp [cloneStep, convertedOf, hc, e, renameAll, chainFn, setLinear, LayerObj.fn, hlin]
  · have hne : st.heap.next ≠ st.heap.next + 1 := by omega
    have e : (splitActivation st.heap k).2 = [st.heap.next] ++ [st.heap.next + 1] := by simp [splitActivation, hs, ha]
    refine ⟨[st.heap.next], st.heap.next + 1, ?_, .inr (by omega), ?_, fun x => ?_⟩
    · simp only [cloneStep, convertedOf, hc, e]
    · simp [cloneStep, convertedOf, hc, splitActivation, hs, ha, renameAll]
    · simp [cloneStep, convertedOf, hc, splitActivation, hs, ha, renameAll, chainFn, setLinear, LayerObj.fn, hlin, Function.update_of_ne hne]

/-- C53: for a chain whose last layer has a softmax and is not used earlier, what is bounded is the network without the softmax: the
layers before, then the last layer before its activation.
Missing with respect to the full claim: a last layer used earlier in the network, refuted below, and the class `keras.layers.Softmax`. -/
theorem C53_logits_partial (I : String → V → V) (hlin : I "linear" = id) (h : Heap V) (init : List ℕ) (k : ℕ)
    (hm : ∀ i ∈ init, i < h.next) (hk : k < h.next) (hnot : k ∉ init) (hs : (h.obj k).act = some "softmax")
    (x : V) :
    chainFn I (convertedChain h (init ++ [k])).1 (convertedChain h (init ++ [k])).2 x = (h.obj k).core (chainFn I h init x) := by
  have u0 : Unmet k (⟨h, 0, fun _ => none⟩ : CloneState V) := ⟨rfl, fun i l e => by simp at e⟩
  obtain ⟨s1, u1, m1⟩ := cloneLoop_unmet h k hk init ⟨h, 0, fun _ => none⟩ hm hnot (.refl h) u0
  obtain ⟨-, -, -, f1⟩ := cloneLoop_spec I hlin h init ⟨h, 0, fun _ => none⟩ hm (.refl h) (goodCache_empty I h h)
  have e0 : convertedChain h (init ++ [k]) =
      (softmaxToLinear (cloneStep (cloneLoop init ⟨h, 0, fun _ => none⟩).1 k).1.heap
        ((cloneLoop init ⟨h, 0, fun _ => none⟩).2 ++ (cloneStep (cloneLoop init ⟨h, 0, fun _ => none⟩).1 k).2),
       (cloneLoop init ⟨h, 0, fun _ => none⟩).2 ++ (cloneStep (cloneLoop init ⟨h, 0, fun _ => none⟩).1 k).2) := by
    simp only [convertedChain, preprocessChain, cloneLoop_append, cloneLoop, List.append_nil]
  rw [e0]
  generalize cloneLoop init ⟨h, 0, fun _ => none⟩ = p at s1 u1 m1 f1
  obtain ⟨a1, a2, -⟩ := s1.2 k hk
  obtain ⟨l, j, e, hj, hact, hf⟩ := cloneStep_softmax I hlin p.1 k u1.1 (by rw [a1]; exact hs)
  rw [e, ← List.append_assoc, softmaxToLinear_last, if_pos hact, List.append_assoc, chainFn_append, hf, a2]
  have hjn : j ∉ p.2 := by
    intro hjm
    have := m1 j hjm
    omega
  rw [chainFn_setLinear I _ j p.2 hjn, (cloneStep_same p.1 k).chain I p.2 (fun i hi => (m1 i hi).2), f1]

/-- Meaning of activations for the examples: the softmax of a vector of size one is one. -/
def scalarAct (s : String) (x : ℚ) : ℚ := if s = "softmax" then 1 else if s = "relu" then max x 0 else x

/-- The objects of the examples: `0` doubles and has a relu, `1` adds three and has a softmax, `2` is an `Activation("softmax")`, `3`
negates and has no activation. -/
def demoHeap : Heap ℚ := ⟨4, fun i =>
  if i = 0 then ⟨"a", false, some "relu", (2 * ·)⟩ else if i = 1 then ⟨"b", false, some "softmax", (· + 3)⟩
  else if i = 2 then ⟨"c", true, some "softmax", id⟩ else ⟨"d", false, none, (-·)⟩⟩

/-- Example for C53: at 1 the logit is 5; the softmax of the network gives 1. -/
example : chainFn scalarAct (convertedChain demoHeap [0, 1]).1 (convertedChain demoHeap [0, 1]).2 1 = 5 ∧
    chainFn scalarAct demoHeap [0, 1] 1 = 1 := by constructor <;> decide +kernel

/-- C53: a last layer that is used twice is linearised at both places: the network `1, 3, 1` has the logit 2 at 5, the converted one -5. -/
theorem C53_shared_refuted :
    (demoHeap.obj 1).core (chainFn scalarAct demoHeap [1, 3] 5) = 2 ∧
      chainFn scalarAct (convertedChain demoHeap [1, 3, 1]).1 (convertedChain demoHeap [1, 3, 1]).2 5 = -5 := by
  constructor <;> decide +kernel

/-- C82: the conversion renames the layers of the user's model that have no activation to split. -/
theorem C82_names_refuted (h : Heap V) (i : ℕ) (hi : (h.obj i).act = none) :
    ((convertedChain h [i]).1.obj i).name = (h.obj i).name ++ "_" ++ toString 0 := by
  simp [convertedChain, preprocessChain, cloneLoop, cloneStep, convertedOf, splitActivation, hi, renameAll, softmaxToLinear]

/-- C82: a user's model that ends with an `Activation("softmax")` computes something else after the conversion: here the value at 5 is 1
before, 5 after. -/
theorem C82_function_refuted :
    chainFn scalarAct demoHeap [2] 5 = 1 ∧ chainFn scalarAct (convertedChain demoHeap [2]).1 [2] 5 = 5 := by
  constructor <;> decide +kernel

/-- C82: when the last layer is not an `Activation("softmax")`, the user's layers compute after the conversion what they did before.
Missing with respect to the full claim: names and a last `Activation("softmax")`, refuted above. -/
theorem C82_function_partial (I : String → V → V) (h : Heap V) (init : List ℕ) (k : ℕ)
    (hm : ∀ i ∈ init ++ [k], i < h.next) (hs : ¬((h.obj k).isActivation = true ∧ (h.obj k).act = some "softmax")) (chain : List ℕ)
    (hc : ∀ i ∈ chain, i < h.next) (x : V) :
    chainFn I (convertedChain h (init ++ [k])).1 chain x = chainFn I h chain x := by
  have hk : k < h.next := hm k (by simp)
  have e0 : convertedChain h (init ++ [k]) =
      (softmaxToLinear (cloneStep (cloneLoop init ⟨h, 0, fun _ => none⟩).1 k).1.heap
        ((cloneLoop init ⟨h, 0, fun _ => none⟩).2 ++ (cloneStep (cloneLoop init ⟨h, 0, fun _ => none⟩).1 k).2),
       (cloneLoop init ⟨h, 0, fun _ => none⟩).2 ++ (cloneStep (cloneLoop init ⟨h, 0, fun _ => none⟩).1 k).2) := by
    simp only [convertedChain, preprocessChain, cloneLoop_append, cloneLoop, List.append_nil]
  obtain ⟨s1, g1⟩ := cloneLoop_placed h init ⟨h, 0, fun _ => none⟩ (fun i hi => hm i (by simp [hi])) (.refl h) (fun i l e => by simp at e)
  rw [e0]
  generalize cloneLoop init ⟨h, 0, fun _ => none⟩ = p at s1 g1
  have s2 := s1.trans (cloneStep_same p.1 k)
  rcases (cloneStep_placed h p.1 s1 g1 k hk).1 with ⟨e, hact⟩ | ⟨n, hn, e⟩
  · rw [e, softmaxToLinear_last, if_neg]
    · exact s2.chain I chain hc x
    · rw [(s2.2 k hk).1]
      intro ha
      rcases hact with h1 | h1 | h1
      · rw [h1] at ha; simp at ha
      · rw [h1] at ha; simp at ha
      · exact hs ⟨h1, ha⟩
  · have : p.2 ++ [n, n + 1] = (p.2 ++ [n]) ++ [n + 1] := by simp
    rw [e, this, softmaxToLinear_last]
    split
    · rw [chainFn_setLinear I _ (n + 1) chain (fun hmem => by have := hc _ hmem; omega)]
      exact s2.chain I chain hc x
    · exact s2.chain I chain hc x

/-- Example for C82: the network `0, 1` of the user keeps its value, the layers split have new objects. -/
example : chainFn scalarAct (convertedChain demoHeap [0, 1]).1 [0, 1] 1 = 1 ∧ (convertedChain demoHeap [0, 1]).2 = [4, 5, 6, 7] := by
  constructor <;> decide +kernel

end Objects

end Decomon
