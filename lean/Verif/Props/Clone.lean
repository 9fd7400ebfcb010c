import Verif.Model.Clone
import Verif.Props.Graph

/-!
Properties C109 (checks of `clone` and attributes of its result) and C110 (options of `clone` and `convert`).
-/

namespace Decomon

/-! ### C109 -/

/-- Specification: the requirements on the model that the documentation states: functional or sequential, one input, flattened; its size is
known. -/
def Convertible (u : UserModel) (n : ℕ) : Prop :=
  (u.kind = .functional ∨ u.kind = .sequential) ∧ ∃ b, u.inputs = [[b, some n]]

/-- Specification: the domains that are supported: boxes, and balls for the norms 1, 2 and inf. -/
def DomArg.Supported : DomArg → Prop
  | .default => True
  | .box => True
  | .ball p => p = .inf ∨ p = .fin 1 ∨ p = .fin 2
  | .other _ => False

/-- Specification: the names of the methods. -/
def methodNames : List (String × Method) :=
  [("crown", .crown), ("crown-forward-ibp", .crownForwardIbp), ("crown-forward-affine", .crownForwardAffine),
   ("crown-forward-hybrid", .crownForwardHybrid), ("forward-ibp", .forwardIbp), ("forward-affine", .forwardAffine),
   ("forward-hybrid", .forwardHybrid)]

theorem mem_methodNames {s : String} {m : Method} (h : (s, m) ∈ methodNames) : methodOfString s = .ok m := by
  have e : s = m.value := by
    simp only [methodNames, List.mem_cons, List.not_mem_nil, or_false, Prod.mk.injEq] at h
    rcases h with h | h | h | h | h | h | h <;> (obtain ⟨rfl, rfl⟩ := h; rfl)
  rw [e]; exact (C52_table m).1

theorem not_mem_methodNames {s : String} (h : ∀ m, (s, m) ∉ methodNames) : methodOfString s = .error .valueError := by
  cases hm : methodOfString s with
  | ok m =>
    refine absurd ?_ (h m)
    rw [← methodOfString_ok s m hm]
    cases m <;> decide +kernel
  | error x =>
    unfold methodOfString at hm
    split at hm
    · simp at hm
    · cases hm; rfl

theorem inputTensorShapes_ok {d : DomArg} (h : d.Supported) (ibp affine : Bool) (n : ℕ) :
    ∃ l, inputTensorShapes d ibp affine n = .ok l := by
  cases d with
  | default => exact ⟨_, rfl⟩
  | box => exact ⟨_, rfl⟩
  | other k => exact h.elim
  | ball p =>
    refine ⟨_, if_neg ?_⟩
    rcases h with rfl | rfl | rfl <;> simp

/-- The options that `clone` passes to `convert`, convert.py:222-243. -/
theorem clone_eq (pre : Except PyErr Unit) (run : ConvertTrace → Except PyErr Unit) (a : CloneArgs) {u : UserModel} {m : Method} {n : ℕ}
    {l : List (List (Option ℕ))} {t : ConvertTrace}
    (h0 : a.model.isModel = true) (e1 : methodOfString a.method = .ok m) (hk : a.toKeras = true) (e2 : ensureFunctional a.model = .ok u)
    (e3 : checkModelInputs u = .ok ()) (e4 : getInputDim u = .ok n)
    (e5 : inputTensorShapes a.domain (ibpAffineOfMethod m).1 (ibpAffineOfMethod m).2 n = .ok l) (hp : pre = .ok ())
    (e6 : convertTrace m (ibpAffineOfMethod m).1 (ibpAffineOfMethod m).2
      ⟨a.layerFn, a.slope, a.domain.resolve, a.finetune, a.finetuneForward, a.finetuneBackward, a.shared, true, n⟩ = .ok t)
    (hr : run t = .ok ()) :
    clone pre run a = .ok ⟨xShape a.domain n,
      nbTensors (getMode (a.finalIbp.getD (ibpAffineOfMethod m).1) (a.finalAffine.getD (ibpAffineOfMethod m).2)) false,
      a.finalIbp.getD (ibpAffineOfMethod m).1, a.finalAffine.getD (ibpAffineOfMethod m).2, m, a.domain.resolve, a.finetune, a.shared,
      decide (0 < a.nBackBounds), t⟩ := by
  simp only [clone, h0, e1, hk, e2, e3, e4, e5, e6, hp, hr, bind, Except.bind, pure, Except.pure]
  rfl

/-- What a successful call of `clone` has done. -/
theorem clone_inv {pre : Except PyErr Unit} {run : ConvertTrace → Except PyErr Unit} {a : CloneArgs} {r : CloneResult}
    (h : clone pre run a = .ok r) :
    ∃ m n t, methodOfString a.method = .ok m ∧ getInputDim a.model = .ok n ∧ convertTrace m (ibpAffineOfMethod m).1 (ibpAffineOfMethod m).2
      ⟨a.layerFn, a.slope, a.domain.resolve, a.finetune, a.finetuneForward, a.finetuneBackward, a.shared, true, n⟩ = .ok t ∧
      r = ⟨xShape a.domain n,
        nbTensors (getMode (a.finalIbp.getD (ibpAffineOfMethod m).1) (a.finalAffine.getD (ibpAffineOfMethod m).2)) false,
        a.finalIbp.getD (ibpAffineOfMethod m).1, a.finalAffine.getD (ibpAffineOfMethod m).2, m, a.domain.resolve, a.finetune, a.shared,
        decide (0 < a.nBackBounds), t⟩ := by
  unfold clone at h
  cases h0 : a.model.isModel with
  | false => simp [h0, bind, Except.bind, throw, throwThe, MonadExceptOf.throw] at h
  | true =>
  cases hk : a.toKeras with
  | false =>
    cases e1 : methodOfString a.method <;>
      simp [h0, e1, hk, bind, Except.bind, pure, Except.pure, throw, throwThe, MonadExceptOf.throw] at h
  | true =>
  simp only [h0, hk, Bool.true_eq_false, ite_false, bind, Except.bind, pure, Except.pure] at h
  split at h
  · cases h
  rename_i m e1
  split at h
  · cases h
  rename_i u e2
  split at h
  · cases h
  split at h
  · cases h
  rename_i n e4
  split at h
  · cases h
  split at h
  · cases h
  split at h
  · cases h
  rename_i t e6
  split at h
  · cases h
  refine ⟨m, n, t, e1, ?_, e6, (Except.ok.inj h).symm⟩
  have : u.inputs = a.model.inputs := by
    unfold ensureFunctional at e2
    split at e2 <;> cases e2 <;> rfl
  unfold getInputDim at e4 ⊢
  rwa [← this]

theorem ensureFunctional_ok {u : UserModel} (h : u.kind = .functional ∨ u.kind = .sequential) :
    u.isModel = true ∧ ∃ v, ensureFunctional u = .ok v ∧ v.inputs = u.inputs := by
  rcases h with h | h
  · exact ⟨by simp [UserModel.isModel, h], u, by simp [ensureFunctional, h], rfl⟩
  · exact ⟨by simp [UserModel.isModel, h], { u with kind := .functional }, by simp [ensureFunctional, h], rfl⟩

theorem convertTrace_ok (m : Method) (i f : Bool) (o : ConvertOpts) (h : o.layerFn.callable = true ∨ m = .crown) :
    ∃ t, convertTrace m i f o = .ok t := by
  unfold convertTrace includeDimLayerFn
  rcases h with h | rfl
  · simp only [h]
    cases o.layerFn.hasInputDim <;> cases m <;> exact ⟨_, rfl⟩
  · exact ⟨_, rfl⟩

/-- C109: `clone` on a model with one flattened input of known size, for a supported domain, a name of method and a callable `layer_fn`,
does not raise by itself: it returns a model as soon as the conversion of the layers does.  The input of the returned model has the shape of
the domain (two points for a box, the centre for a ball) and its attributes are those asked for. -/
theorem C109_success (pre : Except PyErr Unit) (run : ConvertTrace → Except PyErr Unit) (a : CloneArgs) (n : ℕ) (m : Method)
    (hu : Convertible a.model n) (hd : a.domain.Supported) (hm : (a.method, m) ∈ methodNames) (hk : a.toKeras = true)
    (hf : a.layerFn.callable = true) (hp : pre = .ok ()) (hr : ∀ t, run t = .ok ()) :
    ∃ r, clone pre run a = .ok r ∧ r.method = m ∧ (r.domain = if a.domain = .default then .box else a.domain) ∧
      (r.zShape = match a.domain with
        | .ball _ => [none, some n]
        | _ => [none, some 2, some n]) ∧
      (r.ibp = match a.finalIbp with
        | some b => b
        | none => decide (m ≠ .forwardAffine ∧ m ≠ .crownForwardAffine)) ∧
      (r.affine = match a.finalAffine with
        | some b => b
        | none => decide (m = .forwardAffine ∨ m = .crownForwardAffine ∨ m = .forwardHybrid ∨ m = .crownForwardHybrid)) ∧
      r.finetune = a.finetune ∧ r.shared = a.shared ∧ (r.backwardBounds = true ↔ 0 < a.nBackBounds) := by
  obtain ⟨hkind, b, hi⟩ := hu
  obtain ⟨h0, u, e2, hu⟩ := ensureFunctional_ok hkind
  rw [hi] at hu
  have e3 : checkModelInputs u = .ok () := by simp [checkModelInputs, hu]
  have e4 : getInputDim u = .ok n := by simp [getInputDim, hu, prodDims, Except.map]
  obtain ⟨l, e5⟩ := inputTensorShapes_ok hd (ibpAffineOfMethod m).1 (ibpAffineOfMethod m).2 n
  obtain ⟨t, e6⟩ := convertTrace_ok m (ibpAffineOfMethod m).1 (ibpAffineOfMethod m).2
    ⟨a.layerFn, a.slope, a.domain.resolve, a.finetune, a.finetuneForward, a.finetuneBackward, a.shared, true, n⟩ (.inl hf)
  refine ⟨_, clone_eq pre run a h0 (mem_methodNames hm) hk e2 e3 e4 e5 hp e6 (hr t), rfl, ?_, ?_, ?_, ?_, rfl, rfl, by simp⟩
  · cases a.domain <;> simp [DomArg.resolve]
  · have := hd
    cases hdd : a.domain with
    | other k => rw [hdd] at this; exact this.elim
    | _ => simp [xShape, DomArg.ncomp]
  · dsimp only
    cases a.finalIbp <;> cases m <;> rfl
  · dsimp only
    cases a.finalAffine <;> cases m <;> rfl

/-- Example for C109: a sequential model with 3 inputs, by crown on a ball. -/
example : ∃ r, clone (.ok ()) (fun _ => .ok ())
      { CloneArgs.ofModel ⟨.sequential, [[none, some 3]]⟩ with domain := .ball (.fin 2) } = .ok r ∧
    r.zShape = [none, some 3] ∧ r.ibp = true ∧ r.affine = false ∧ r.nOutputs = 2 := ⟨_, rfl, rfl, rfl, rfl, rfl⟩

/-- C109: the exceptions of `clone`, in the order in which they are looked for: an object that is not a model, an unknown method, `to_keras=False`,
a subclassed model, several inputs, an input that is not flattened, an input of unknown size, an unsupported domain, a `layer_fn` that is
not callable.  The last check is not done by `method="crown"`; the one before concerns a ball only if the method has constant bounds. -/
theorem C109_errors (pre : Except PyErr Unit) (run : ConvertTrace → Except PyErr Unit) (a : CloneArgs) :
    (a.model.kind = .notModel → clone pre run a = .error .valueError) ∧
    (a.model.kind ≠ .notModel → (∀ m, (a.method, m) ∉ methodNames) → clone pre run a = .error .valueError) ∧
    (∀ m, a.model.kind ≠ .notModel → (a.method, m) ∈ methodNames →
      (a.toKeras = false ∨ a.model.kind = .subclassed → clone pre run a = .error .notImplemented) ∧
      (a.toKeras = true → a.model.kind ≠ .subclassed →
        (2 ≤ a.model.inputs.length → clone pre run a = .error .valueError) ∧
        (∀ s, a.model.inputs = [s] →
          (3 ≤ s.length → clone pre run a = .error .valueError) ∧
          (∀ b, s = [b, none] → clone pre run a = .error .typeError) ∧
          (∀ b n, s = [b, some n] →
            (∀ k, a.domain = .other k → clone pre run a = .error .notImplemented) ∧
            (∀ p, a.domain = .ball p → p ≠ .inf → p ≠ .fin 1 → p ≠ .fin 2 → m ≠ .forwardAffine → m ≠ .crownForwardAffine →
              clone pre run a = .error .notImplemented) ∧
            (a.domain.Supported → pre = .ok () → a.layerFn.callable = false → m ≠ .crown →
              clone pre run a = .error .valueError))))) := by
  refine ⟨fun h => ?_, fun h hm => ?_, fun m h hm => ?_⟩
  · simp [clone, UserModel.isModel, h, throw, throwThe, MonadExceptOf.throw, bind, Except.bind]
  · have h0 : a.model.isModel = true := by simp [UserModel.isModel, h]
    simp [clone, h0, not_mem_methodNames hm, bind, Except.bind, pure, Except.pure]
  · have h0 : a.model.isModel = true := by simp [UserModel.isModel, h]
    have e1 := mem_methodNames hm
    refine ⟨fun hk => ?_, fun hk hs => ?_⟩
    · cases ht : a.toKeras with
      | false => simp [clone, h0, e1, ht, bind, Except.bind, pure, Except.pure, throw, throwThe, MonadExceptOf.throw]
      | true =>
        rcases hk with hk | hk
        · rw [ht] at hk; cases hk
        · simp [clone, h0, e1, ht, ensureFunctional, hk, bind, Except.bind, pure, Except.pure]
    · have hkind : a.model.kind = .functional ∨ a.model.kind = .sequential := by
        cases hh : a.model.kind <;> simp_all
      obtain ⟨-, u, e2, hu⟩ := ensureFunctional_ok hkind
      refine ⟨fun hi => ?_, fun s hi => ⟨fun h3 => ?_, ?_, ?_⟩⟩
      · have e3 : checkModelInputs u = .error .valueError := if_pos (by rw [hu]; omega)
        simp [clone, h0, e1, hk, e2, e3, bind, Except.bind, pure, Except.pure]
      · have e3 : checkModelInputs u = .error .valueError := by
          have : 2 < s.length := by omega
          simp [checkModelInputs, hu, hi, this]
        simp [clone, h0, e1, hk, e2, e3, bind, Except.bind, pure, Except.pure]
      · rintro b rfl
        rw [hi] at hu
        have e3 : checkModelInputs u = .ok () := by simp [checkModelInputs, hu]
        have e4 : getInputDim u = .error .typeError := by simp [getInputDim, hu, prodDims]
        simp [clone, h0, e1, hk, e2, e3, e4, bind, Except.bind, pure, Except.pure]
      · rintro b n rfl
        rw [hi] at hu
        have e3 : checkModelInputs u = .ok () := by simp [checkModelInputs, hu]
        have e4 : getInputDim u = .ok n := by simp [getInputDim, hu, prodDims, Except.map]
        refine ⟨fun k hd => ?_, fun p hd p1 p2 p3 m1 m2 => ?_, fun hd hp hf hc => ?_⟩
        · simp [clone, h0, e1, hk, e2, e3, e4, inputTensorShapes, hd, DomArg.resolve, bind, Except.bind, pure, Except.pure]
        · have hi : (ibpAffineOfMethod m).1 = true := by cases m <;> simp_all <;> rfl
          simp [clone, h0, e1, hk, e2, e3, e4, inputTensorShapes, hd, DomArg.resolve, hi, p1, p2, p3, bind, Except.bind, pure,
            Except.pure]
        · obtain ⟨l, e5⟩ := inputTensorShapes_ok hd (ibpAffineOfMethod m).1 (ibpAffineOfMethod m).2 n
          simp [clone, h0, e1, hk, e2, e3, e4, e5, hp, convertTrace, includeDimLayerFn, hf, hc, bind, Except.bind, pure, Except.pure,
            Except.map]

/-- Example for C109: two inputs, an image, an input of unknown size, a ball for the norm 3. -/
example :
    clone (.ok ()) (fun _ => .ok ()) (.ofModel ⟨.functional, [[none, some 3], [none, some 3]]⟩) = .error .valueError ∧
    clone (.ok ()) (fun _ => .ok ()) (.ofModel ⟨.functional, [[none, some 28, some 28]]⟩) = .error .valueError ∧
    clone (.ok ()) (fun _ => .ok ()) (.ofModel ⟨.functional, [[none, none]]⟩) = .error .typeError ∧
    clone (.ok ()) (fun _ => .ok ()) { CloneArgs.ofModel ⟨.functional, [[none, some 3]]⟩ with domain := .ball (.fin 3) } =
      .error .notImplemented := by
  refine ⟨rfl, rfl, rfl, by decide +kernel⟩

/-- C109: the attributes of the returned model describe its outputs: `get_range_box` unpacks as many tensors as there are.
Missing with respect to the full claim: `final_ibp=False, final_affine=False`, see below. -/
theorem C109_attributes_partial (pre : Except PyErr Unit) (run : ConvertTrace → Except PyErr Unit) (a : CloneArgs) (r : CloneResult)
    (h : clone pre run a = .ok r) (hne : r.ibp = true ∨ r.affine = true) : rangeReads r.ibp r.affine = .ok r.nOutputs := by
  obtain ⟨m, n, t, -, -, -, rfl⟩ := clone_inv h
  dsimp only at hne ⊢
  revert hne
  generalize a.finalIbp.getD _ = i
  generalize a.finalAffine.getD _ = f
  revert i f
  decide

/-- C109: with `final_ibp=False, final_affine=False` the returned model has the five outputs of the affine mode, but says that it has neither
constant nor affine bounds, and `get_range_box` raises. -/
theorem C109_attributes_refuted :
    ∃ r, clone (.ok ()) (fun _ => .ok ())
        { CloneArgs.ofModel ⟨.functional, [[none, some 3]]⟩ with finalIbp := some false, finalAffine := some false } = .ok r ∧
      r.nOutputs = 5 ∧ rangeReads r.ibp r.affine = .error .notImplemented := ⟨_, rfl, rfl, rfl⟩

/-! ### C110 -/

/-- C110: with the default `layer_fn`, every layer of the forward pass is converted with the slope, the domain, the sharing, the finetuning
and the mode asked for, the true size of the input, and without decomposition; this is for every method but crown.  `finetune=True` stands
for both `finetune_forward` and `finetune_backward`. -/
theorem C110_forward (pre : Except PyErr Unit) (run : ConvertTrace → Except PyErr Unit) (a : CloneArgs) (r : CloneResult)
    (h : clone pre run a = .ok r) (hf : a.layerFn = toDecomonFn) (hm : r.method ≠ .crown) :
    ∃ s, r.trace.fwd = some ⟨"to_decomon", some s⟩ ∧ r.trace.fwdSoftmax = true ∧ s.slope = a.slope ∧ s.domain = r.domain ∧
      s.shared = a.shared ∧ (s.finetune = true ↔ a.finetune = true ∨ a.finetuneForward = true) ∧ s.dc = false ∧
      (s.ibp = true ↔ r.method ∈ [Method.forwardIbp, .forwardHybrid, .crownForwardIbp, .crownForwardHybrid]) ∧
      (s.affine = true ↔ r.method ∈ [Method.forwardAffine, .forwardHybrid, .crownForwardAffine, .crownForwardHybrid]) ∧
      (∀ b k, a.model.inputs = [[b, some k]] → s.inputDim = k) := by
  obtain ⟨m, n, t, -, e4, e6, rfl⟩ := clone_inv h
  dsimp only at hm ⊢
  simp only [convertTrace, if_neg hm, includeDimLayerFn, hf, toDecomonFn, Except.map, bind, Except.bind, pure, Except.pure,
    Bool.true_eq_false, ite_false, ite_true] at e6
  cases e6
  refine ⟨_, rfl, rfl, rfl, ?_, rfl, ?_, rfl, ?_, ?_, ?_⟩
  · dsimp only
    cases a.domain <;> rfl
  · simp
  · revert hm; dsimp only; cases m <;> decide
  · revert hm; dsimp only; cases m <;> decide
  · intro b k hi
    simp [getInputDim, hi, prodDims, Except.map] at e4
    exact e4.symm

/-- C110: every layer of the backward pass is converted by `to_backward` with the slope, the domain and the finetuning asked for, in the mode
of the method (constant bounds for crown); this is for the crown methods only. -/
theorem C110_backward (pre : Except PyErr Unit) (run : ConvertTrace → Except PyErr Unit) (a : CloneArgs) (r : CloneResult)
    (h : clone pre run a = .ok r) :
    (r.method ∈ [Method.forwardIbp, .forwardAffine, .forwardHybrid] → r.trace.bwd = none) ∧
    (r.method ∉ [Method.forwardIbp, .forwardAffine, .forwardHybrid] → ∃ s, r.trace.bwd = some s ∧ s.fn = "to_backward" ∧
      s.slope = a.slope ∧ s.domain = r.domain ∧ (s.finetune = true ↔ a.finetune = true ∨ a.finetuneBackward = true) ∧
      (s.mode = match r.method with
        | .crownForwardAffine => .affine
        | .crownForwardHybrid => .hybrid
        | _ => .ibp)) := by
  obtain ⟨m, n, t, -, e4, e6, rfl⟩ := clone_inv h
  dsimp only
  have ht : t.bwd = if isBackward m then
      some ⟨"to_backward", getMode (ibpAffineOfMethod m).1 (ibpAffineOfMethod m).2, a.finetune || a.finetuneBackward,
        a.domain.resolve.resolve, a.slope⟩ else none := by
    unfold convertTrace at e6
    simp only [bind, Except.bind, pure, Except.pure] at e6
    split at e6
    · cases e6; rfl
    · split at e6
      · cases e6
      · cases e6; rfl
  rw [ht]
  have hd : a.domain.resolve.resolve = a.domain.resolve := by cases a.domain <;> rfl
  constructor
  · intro hm
    cases m <;> simp_all <;> rfl
  · intro hm
    refine ⟨⟨"to_backward", getMode (ibpAffineOfMethod m).1 (ibpAffineOfMethod m).2, a.finetune || a.finetuneBackward,
        a.domain.resolve.resolve, a.slope⟩, if_pos ?_, rfl, rfl, hd, by simp, ?_⟩
    · cases m <;> simp_all <;> rfl
    · cases m <;> simp_all <;> rfl

/-- Example for C110: `crown-forward-hybrid` with finetuning of the backward layers only. -/
example : ∃ r, clone (.ok ()) (fun _ => .ok ()) { CloneArgs.ofModel ⟨.functional, [[none, some 3]]⟩ with
      method := "crown-forward-hybrid", finetuneBackward := true, slope := .zSlope } = .ok r ∧
    r.trace.fwd = some ⟨"to_decomon", some ⟨3, .zSlope, .box, false, true, true, false, true⟩⟩ ∧
    r.trace.bwd = some ⟨"to_backward", .hybrid, true, .box, .zSlope⟩ := ⟨_, rfl, rfl, rfl⟩

/-- C110: a `layer_fn` given by the user receives the same settings if it has a parameter named `input_dim`.
Missing with respect to the full claim: any other callable, see below, and the methods that do not call it. -/
theorem C110_layer_fn_partial (pre : Except PyErr Unit) (run : ConvertTrace → Except PyErr Unit) (a : CloneArgs) (r r0 : CloneResult)
    (h : clone pre run a = .ok r) (h0 : clone pre run { a with layerFn := toDecomonFn } = .ok r0) (hi : a.layerFn.hasInputDim = true) :
    r.trace.fwd = r0.trace.fwd.map (fun c => ⟨a.layerFn.name, c.settings⟩) ∧ r.trace.bwd = r0.trace.bwd := by
  obtain ⟨m, n, t, e1, e4, e6, rfl⟩ := clone_inv h
  obtain ⟨m', n', t', e1', e4', e6', rfl⟩ := clone_inv h0
  dsimp only at e1' e4' e6' ⊢
  rw [e1] at e1'; cases e1'
  rw [e4] at e4'; cases e4'
  by_cases hm : m = .crown
  · subst hm
    cases e6; cases e6'
    exact ⟨rfl, rfl⟩
  · cases hc : a.layerFn.callable with
    | false =>
      simp [convertTrace, if_neg hm, includeDimLayerFn, hc, Except.map, bind, Except.bind] at e6
    | true =>
      simp only [convertTrace, if_neg hm, includeDimLayerFn, hc, hi, toDecomonFn, Except.map, bind, Except.bind, pure, Except.pure,
        Bool.true_eq_false, ite_false, ite_true] at e6 e6'
      cases e6; cases e6'
      exact ⟨rfl, rfl⟩

/-- C110: a callable without a parameter named `input_dim` (for instance `lambda layer, **kwargs: to_decomon(layer, **kwargs)`) is called on
the layer alone: it receives neither the domain nor the mode. -/
theorem C110_layer_fn_refuted (pre : Except PyErr Unit) (run : ConvertTrace → Except PyErr Unit) (a : CloneArgs) (r : CloneResult)
    (h : clone pre run a = .ok r) (hm : r.method ≠ .crown) (hi : a.layerFn.hasInputDim = false) :
    r.trace.fwd = some ⟨a.layerFn.name, none⟩ := by
  obtain ⟨m, n, t, e1, e4, e6, rfl⟩ := clone_inv h
  dsimp only at hm ⊢
  cases hc : a.layerFn.callable with
  | false => simp [convertTrace, if_neg hm, includeDimLayerFn, hc, Except.map, bind, Except.bind] at e6
  | true =>
    simp only [convertTrace, if_neg hm, includeDimLayerFn, hc, hi, Except.map, bind, Except.bind, pure, Except.pure,
      Bool.true_eq_false, Bool.false_eq_true, ite_false] at e6
    cases e6
    rfl

/-- Example for the refutation: such a callable on a ball, by forward-hybrid. -/
example : ∃ r, clone (.ok ()) (fun _ => .ok ()) { CloneArgs.ofModel ⟨.functional, [[none, some 3]]⟩ with
      method := "forward-hybrid", layerFn := ⟨"my_fn", true, false⟩, domain := .ball .inf } = .ok r ∧
    r.trace.fwd = some ⟨"my_fn", none⟩ := ⟨_, rfl, rfl⟩

/-- C110: the default method, crown, ignores `layer_fn`, even an object that is not callable. -/
theorem C110_layer_fn_crown_refuted (pre : Except PyErr Unit) (run : ConvertTrace → Except PyErr Unit) (a : CloneArgs) (f g : LayerFnArg)
    (hm : a.method = "crown") : clone pre run { a with layerFn := f } = clone pre run { a with layerFn := g } := by
  have e1 : methodOfString a.method = .ok .crown := by rw [hm]; decide +kernel
  simp only [clone, e1, convertTrace, ite_true, bind, Except.bind, pure, Except.pure]

/-- C110: extra keyword arguments of `clone` are ignored without an error, so a misspelt option, or `softmax_to_linear=False`, has no effect. -/
theorem C110_kwargs_refuted (pre : Except PyErr Unit) (run : ConvertTrace → Except PyErr Unit) (a : CloneArgs) (l : List String) :
    clone pre run { a with kwargs := l } = clone pre run { a with kwargs := [] } := rfl

/-- C110: `convert(..., softmax_to_linear=False)` keeps the softmax in the forward pass only: the backward pass removes it. -/
theorem C110_softmax_refuted (m : Method) (ibp affine : Bool) (o : ConvertOpts) (t : ConvertTrace)
    (h : convertTrace m ibp affine { o with softmaxToLinear := false } = .ok t) :
    t.fwdSoftmax = false ∧ (t.bwdSoftmax = true ↔ m ∉ [Method.forwardIbp, .forwardAffine, .forwardHybrid]) := by
  have hs : t.fwdSoftmax = false ∧ t.bwdSoftmax = isBackward m := by
    unfold convertTrace at h
    simp only [bind, Except.bind, pure, Except.pure] at h
    split at h
    · cases h
      exact ⟨by simp, by cases m <;> rfl⟩
    · split at h
      · cases h
      · cases h
        exact ⟨by simp, by cases m <;> rfl⟩
  refine ⟨hs.1, ?_⟩
  rw [hs.2]
  cases m <;> decide

/-- C110: the attribute `finetune` of the returned model is `False` although its layers are finetuned, if the option was given as
`finetune_forward=True`. -/
theorem C110_finetune_refuted : ∃ r s, clone (.ok ()) (fun _ => .ok ()) { CloneArgs.ofModel ⟨.functional, [[none, some 3]]⟩ with
      method := "forward-affine", finetuneForward := true } = .ok r ∧
    r.finetune = false ∧ r.trace.fwd = some ⟨"to_decomon", some s⟩ ∧ s.finetune = true := ⟨_, _, rfl, rfl, rfl, rfl⟩

end Decomon
