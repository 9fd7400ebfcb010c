import Verif.Lemmas.SymmBack

/-!
C119: the bounds follow a change of units and a renumbering of the neurons.
-/

namespace Decomon

section
variable {ι ι' κ κ' α : Type} [Fintype ι] [Fintype ι'] [DecidableEq ι] [DecidableEq ι'] [Field α] [LinearOrder α] [IsStrictOrderedRing α]

/-- The bounds `f'` are the image of the bounds `f`: the constants when there are some, the affine bounds at corresponding points and the
numbers that they give over the domain when there are some. -/
def ImageOutputs (m : Mode) (s : ι ≃ ι') (a t : ι → α) (e : κ ≃ κ') (c d : κ → α) (f : Full ((ι → α) × (ι → α)) ι κ α)
    (f' : Full ((ι' → α) × (ι' → α)) ι' κ' α) : Prop :=
  (m ≠ .affine → ImageBounds e c d f.uc f.lc f'.uc f'.lc) ∧
  (m ≠ .ibp → (∀ z, ImageBounds e c d (fun k => affEval (fun i => f.wu i k) (f.bu k) z) (fun k => affEval (fun i => f.wl i k) (f.bl k) z)
      (fun k => affEval (fun i => f'.wu i k) (f'.bu k) (imagePoint s a t z))
      (fun k => affEval (fun i => f'.wl i k) (f'.bl k) (imagePoint s a t z))) ∧
    ImageBounds e c d (fun k => boxDomain.getUpper f.x (fun i => f.wu i k) (f.bu k))
      (fun k => boxDomain.getLower f.x (fun i => f.wl i k) (f.bl k)) (fun k => boxDomain.getUpper f'.x (fun i => f'.wu i k) (f'.bu k))
      (fun k => boxDomain.getLower f'.x (fun i => f'.wl i k) (f'.bl k)))

theorem imageOutputs_of_full {m : Mode} {s : ι ≃ ι'} {a t : ι → α} {e : κ ≃ κ'} {c d : κ → α} {f : Full ((ι → α) × (ι → α)) ι κ α}
    {f' : Full ((ι' → α) × (ι' → α)) ι' κ' α} (h : ImageFull boxDomain boxDomain m (imagePoint s a t) e c d f f') :
    ImageOutputs m s a t e c d f f' := by
  refine ⟨fun hm => h.const ?_, fun hm => ⟨fun z => h.aff ?_ z, h.concrete ?_⟩⟩ <;> cases m <;> first | rfl | exact absurd rfl hm

theorem imageFull_input {s : ι ≃ ι'} {a t : ι → α} (ha : ∀ i, a i ≠ 0) {xmin xmax : ι → α} {xmin' xmax' : ι' → α}
    (h : ImageBounds s a t xmax xmin xmax' xmin') (m : Mode) :
    ImageFull boxDomain boxDomain m (imagePoint s a t) s a t (inputTensorsBox m xmin xmax) (inputTensorsBox m xmin' xmax') := by
  refine ⟨ha, domImage_box s a t ha xmin xmax xmin' xmax' h, fun hi => ?_, fun hf z k => ?_⟩
  · simp only [inputTensorsBox, hi, if_true]; exact h
  · simp only [Full.evalU, Full.evalL, inputTensorsBox, hf, if_true, affEval, add_zero, ite_mul, one_mul, zero_mul, Finset.sum_ite_eq',
      Finset.mem_univ, imagePoint_apply, ite_self, and_self]

theorem imageFull_convert2Mode {m mf : Mode} (hm : m = .ibp → mf = .ibp) {s : ι ≃ ι'} {a t : ι → α} {e : κ ≃ κ'} {c d : κ → α}
    {f : Full ((ι → α) × (ι → α)) ι κ α} {f' : Full ((ι' → α) × (ι' → α)) ι' κ' α}
    (h : ImageFull boxDomain boxDomain m (imagePoint s a t) e c d f f') :
    ImageFull boxDomain boxDomain mf (imagePoint s a t) e c d (convert2Mode boxDomain m mf f) (convert2Mode boxDomain m mf f') := by
  have h1 := h.tighten (decide (m = .affine ∧ mf ≠ .affine)) (decide (m = .hybrid ∧ mf ≠ .affine))
  refine ⟨h1.ne, h1.dom, fun hi k => ?_, fun hf z k => ?_⟩
  · simp only [convert2Mode, hi, if_true]
    cases m with
    | ibp => exact h1.const rfl k
    | affine =>
      have : mf ≠ .affine := by rintro rfl; simp [getIbp] at hi
      simpa [Full.tighten, this] using h.concrete rfl k
    | hybrid => exact h1.const rfl k
  · have ha : getAffine m = true := by
      cases m with
      | ibp => rw [hm rfl] at hf; simp [getAffine] at hf
      | affine => rfl
      | hybrid => rfl
    simp only [convert2Mode, Full.evalU, Full.evalL, hf, if_true]
    exact h1.aff ha z k

/-- **C119 (sanity).** What "written in other units" means for the functions: neuron `e k` of `n'` computes `c k * y + d k` at the image of
a point where neuron `k` of `n` computes `y`. -/
theorem C119_eval {exact : Prop} {s : ι ≃ ι'} {a t : ι → α} {n : Net α ι κ} {n' : Net α ι' κ'} {e : κ ≃ κ'} {c d : κ → α}
    (h : n.Reparam exact s a t n' e c d) (p : ι → α) (k : κ) : n'.eval (imagePoint s a t p) (e k) = c k * n.eval p k + d k :=
  h.evalImage p k

/-- **C119 (forward methods).** In all modes, for all networks of the layers modelled and all their rewritings in other units, the bounds
of the rewritten network over the image of the box are the images of the bounds, for the mode of the pass and after the conversion to the
final mode.  With `exact = True` (factors 1 at the ReLUs, maxima and minima: renumberings, changes of the units of the inputs and of the
outputs) there is no other hypothesis.

Partial: with other factors, no ReLU meets the epsilon guard of the hull in either network (see `C119_guard_refuted`); products keep their
signs (see `C119_product_sign_refuted`); boxes only; the conversion from ibp to another mode is left out. -/
theorem C119_forward_partial {exact : Prop} {s : ι ≃ ι'} {a t : ι → α} (ha : ∀ i, a i ≠ 0) {n : Net α ι κ} {n' : Net α ι' κ'} {e : κ ≃ κ'}
    {c d : κ → α} (h : n.Reparam exact s a t n' e c d) {xmin xmax : ι → α} {xmin' xmax' : ι' → α}
    (hb : ImageBounds s a t xmax xmin xmax' xmin') (m mf : Mode) (hm : m = .ibp → mf = .ibp) (eps : α) (slope : Slope)
    (hx : exact ∨ n.SliverOK boxDomain m eps slope (inputTensorsBox m xmin xmax) ∧
      n'.SliverOK boxDomain m eps slope (inputTensorsBox m xmin' xmax')) :
    ImageOutputs m s a t e c d (n.forward boxDomain m eps slope (inputTensorsBox m xmin xmax))
      (n'.forward boxDomain m eps slope (inputTensorsBox m xmin' xmax')) ∧
    ImageOutputs mf s a t e c d (convert2Mode boxDomain m mf (n.forward boxDomain m eps slope (inputTensorsBox m xmin xmax)))
      (convert2Mode boxDomain m mf (n'.forward boxDomain m eps slope (inputTensorsBox m xmin' xmax'))) := by
  have := h.image boxDomain boxDomain m (imagePoint s a t) eps slope _ _ (imageFull_input ha hb m) hx
  exact ⟨imageOutputs_of_full this, imageOutputs_of_full (imageFull_convert2Mode hm this)⟩

/-- **C119 (backward methods).** The same for `crown` and `crown-forward-*` on the networks without merge layers: both conversions succeed
and the bounds are images of each other. -/
theorem C119_crown_partial {exact : Prop} {s : ι ≃ ι'} {a t : ι → α} (ha : ∀ i, a i ≠ 0) {n : Net α ι κ} {n' : Net α ι' κ'} {e : κ ≃ κ'}
    {c d : κ → α} (h : n.Reparam exact s a t n' e c d) (hn : n.Chain) {xmin xmax : ι → α} {xmin' xmax' : ι' → α}
    (hb : ImageBounds s a t xmax xmin xmax' xmin') (m mf : Mode) (hm : m = .ibp → mf = .ibp) (eps : α) (slope : Slope) (fwd : Bool)
    (hx : exact ∨ (boxCrown m eps slope fwd xmin xmax).SliverOK n ∧ (boxCrown m eps slope fwd xmin' xmax').SliverOK n') :
    ∃ f f', (boxCrown m eps slope fwd xmin xmax).model n = .ok f ∧ (boxCrown m eps slope fwd xmin' xmax').model n' = .ok f' ∧
      ImageOutputs m s a t e c d f f' ∧ ImageOutputs mf s a t e c d (convert2Mode boxDomain m mf f) (convert2Mode boxDomain m mf f') := by
  have hi := imageFull_input ha hb m
  have hst : m = .ibp → DomImage boxDomain ((inputTensorsBox m xmin xmax).lc, (inputTensorsBox m xmin xmax).uc) boxDomain
      ((inputTensorsBox m xmin' xmax').lc, (inputTensorsBox m xmin' xmax').uc) (imagePoint s a t) := by
    rintro rfl
    exact domImage_box s a t ha _ _ _ _ (hi.const rfl)
  obtain ⟨⟨r, r', h1, h2, h3⟩, -⟩ := CrownCfg.node_image (boxCrown m eps slope fwd xmin xmax) (boxCrown m eps slope fwd xmin' xmax') rfl rfl
    rfl rfl hi hst h hn hx
  refine ⟨_, _, by rw [CrownCfg.model, h1]; rfl, by rw [CrownCfg.model, h2]; rfl, ?_⟩
  have := imageFull_convert (h.ne_zero ha) hi Prod.mk Prod.mk hst h3
  exact ⟨imageOutputs_of_full this, imageOutputs_of_full (imageFull_convert2Mode hm this)⟩

/-! ### A change of the units of the inputs, absorbed by the first layer -/

theorem onTop_eval {κ μ : Type} (n : Net α ι κ) (q : Net α κ μ) (p : ι → α) : (n.onTop q).eval p = q.eval (n.eval p) := by
  induction q with
  | input => rfl
  | layer q l ih => exact congrArg l.eval ih
  | merge op q0 q1 i0 i1 =>
    funext k
    exact congrArg₂ op.eval (congrFun i0 k) (congrFun i1 k)

theorem onTop_chain {κ μ : Type} {n : Net α ι κ} (hn : n.Chain) {q : Net α κ μ} (hq : q.Chain) : (n.onTop q).Chain := by
  induction q with
  | input => exact hn
  | layer q l ih => exact ih hq
  | merge op q0 q1 i0 i1 => exact hq.elim

/-- The layers above are unchanged when the neurons they read are. -/
theorem onTop_reparam {s : ι ≃ ι'} {a t : ι → α} {n : Net α ι κ} {n' : Net α ι' κ}
    (h : n.Reparam True s a t n' (Equiv.refl κ) (fun _ => 1) fun _ => 0) {μ : Type} (q : Net α κ μ) (hq : q.WF) :
    (n.onTop q).Reparam True s a t (n'.onTop q) (Equiv.refl μ) (fun _ => 1) fun _ => 0 := by
  induction q with
  | input => exact h
  | @layer κ₁ κ₂ i1 _ i3 q l ih =>
    have ih := ih hq.1
    cases l with
    | dense K b => exact .dense ih _ _ _ (fun _ => one_ne_zero) K b K b (fun i j => by simp) fun j => by simp
    | linear L K b =>
      exact .linear ih _ _ _ (fun _ => one_ne_zero) L K b L K b (fun _ => Equiv.refl _) (fun o t => by simp) (fun o t r _ => by simp)
        fun o => by simp only [Equiv.refl_apply, one_mul, add_zero]; rw [add_eq_left]; refine Finset.sum_eq_zero fun t _ => ?_
                    cases L.src o t <;> simp
    | relu gf gb =>
      obtain rfl := Subsingleton.elim i1 i3
      exact .relu ih (fun _ => one_pos) (fun _ _ => rfl) gf gb gf gb (fun _ => rfl) fun _ => rfl
    | batchNorm g b μ sd =>
      obtain rfl := Subsingleton.elim i1 i3
      exact .batchNorm ih _ _ (fun _ => one_ne_zero) g b μ sd g b μ sd hq.2 hq.2 (fun k => by simp) fun k => by
        simp only [Equiv.refl_apply]; ring
    | reshape r => exact .reshape ih _ r r fun _ => rfl
    | skip =>
      obtain rfl := Subsingleton.elim i1 i3
      exact .skip ih
  | merge op q0 q1 i0 i1 =>
    have i0 := i0 hq.1
    have i1 := i1 hq.2
    cases op with
    | add => simpa [Net.onTop] using Net.Reparam.add i0 i1
    | average => simpa [Net.onTop] using Net.Reparam.average i0 i1
    | subtract => simpa [Net.onTop] using Net.Reparam.subtract i0 i1
    | maximum => exact .maximum i0 i1 (fun _ => one_pos) fun _ _ => rfl
    | minimum => exact .minimum i0 i1 (fun _ => one_pos) fun _ _ => rfl
    | multiply => simpa [Net.onTop] using Net.Reparam.multiply i0 i1 (fun _ => one_pos) fun _ => one_pos

/-- The first layer that absorbs `x = (x' - t) / a`. -/
theorem absorb_reparam [Fintype κ] [DecidableEq κ] (a t : ι → α) (ha : ∀ i, a i ≠ 0) (K : ι → κ → α) (b : κ → α) :
    (Net.layer .input (.dense K b) : Net α ι κ).Reparam True (Equiv.refl ι) a t
      (.layer .input (.dense (fun i j => K i j / a i) fun j => b j - ∑ i, K i j / a i * t i)) (Equiv.refl κ) (fun _ => 1) fun _ => 0 :=
  .dense .input _ _ _ (fun _ => one_ne_zero) K b _ _ (fun i j => by simp [ha i]) fun j => by simp

/-- **C119 (units of the inputs).** Whatever follows the first dense layer, and in every mode: a network that receives its inputs in other
units `x' = a x + t` (raw pixels instead of normalised ones, say), its first layer rewritten accordingly, has exactly the same bounds over
the box written in the new units.  The factors may be negative, provided the corners are exchanged. -/
theorem C119_input_units [Fintype κ] [DecidableEq κ] {μ : Type} (a t : ι → α) (ha : ∀ i, a i ≠ 0) (K : ι → κ → α) (b : κ → α)
    (q : Net α κ μ) (hq : q.WF) (xmin xmax xmin' xmax' : ι → α)
    (hb : ∀ i, xmax' i = a i * (if 0 < a i then xmax i else xmin i) + t i ∧ xmin' i = a i * (if 0 < a i then xmin i else xmax i) + t i)
    (m : Mode) (eps : α) (slope : Slope) :
    let n : Net α ι μ := (Net.layer .input (.dense K b)).onTop q
    let n' : Net α ι μ := (Net.layer .input (.dense (fun i j => K i j / a i) fun j => b j - ∑ i, K i j / a i * t i)).onTop q
    let f := n.forward boxDomain m eps slope (inputTensorsBox m xmin xmax)
    let f' := n'.forward boxDomain m eps slope (inputTensorsBox m xmin' xmax')
    (∀ p, n'.eval (fun i => a i * p i + t i) = n.eval p) ∧
    (m ≠ .affine → f'.uc = f.uc ∧ f'.lc = f.lc) ∧
    (m ≠ .ibp → ∀ k, (∀ i, f'.wu i k * a i = f.wu i k ∧ f'.wl i k * a i = f.wl i k) ∧
      boxDomain.getUpper f'.x (fun i => f'.wu i k) (f'.bu k) = boxDomain.getUpper f.x (fun i => f.wu i k) (f.bu k) ∧
      boxDomain.getLower f'.x (fun i => f'.wl i k) (f'.bl k) = boxDomain.getLower f.x (fun i => f.wl i k) (f.bl k)) := by
  intro n n' f f'
  have h := onTop_reparam (absorb_reparam a t ha K b) q hq
  have hB : ImageBounds (Equiv.refl ι) a t xmax xmin xmax' xmin' := hb
  have hf := (C119_forward_partial ha h hB m m id eps slope (.inl trivial)).1
  refine ⟨fun p => funext fun k => ?_, fun hm => ?_, fun hm k => ?_⟩
  · have := C119_eval h p k
    rw [one_mul, add_zero] at this
    exact this
  · constructor <;> funext k
    · simpa using (hf.1 hm k).1
    · simpa using (hf.1 hm k).2
  · have h1 := (hf.2 hm).2 k
    have h2 := fun z => (hf.2 hm).1 z k
    simp only [zero_lt_one, if_true, one_mul, add_zero] at h1 h2
    refine ⟨fun i => ?_, h1.1, h1.2⟩
    have u := (image_coeff (s := Equiv.refl ι) (a := a) (t := t) (c := 1) (d := 0) fun z => by rw [one_mul, add_zero]; exact (h2 z).1).1 i
    have l := (image_coeff (s := Equiv.refl ι) (a := a) (t := t) (c := 1) (d := 0) fun z => by rw [one_mul, add_zero]; exact (h2 z).2).1 i
    rw [one_mul] at u l
    exact ⟨u, l⟩

/-- **C119 (units of the inputs, backward methods).** The same for `crown` and `crown-forward-*` when no merge layer follows. -/
theorem C119_input_units_crown [Fintype κ] [DecidableEq κ] {μ : Type} (a t : ι → α) (ha : ∀ i, a i ≠ 0) (K : ι → κ → α) (b : κ → α)
    (q : Net α κ μ) (hq : q.WF) (hc : q.Chain) (xmin xmax xmin' xmax' : ι → α)
    (hb : ∀ i, xmax' i = a i * (if 0 < a i then xmax i else xmin i) + t i ∧ xmin' i = a i * (if 0 < a i then xmin i else xmax i) + t i)
    (m : Mode) (eps : α) (slope : Slope) (fwd : Bool) :
    ∃ f f', (boxCrown m eps slope fwd xmin xmax).model ((Net.layer .input (.dense K b)).onTop q) = .ok f ∧
      (boxCrown m eps slope fwd xmin' xmax').model
        ((Net.layer .input (.dense (fun i j => K i j / a i) fun j => b j - ∑ i, K i j / a i * t i)).onTop q) = .ok f' ∧
      (m ≠ .affine → f'.uc = f.uc ∧ f'.lc = f.lc) ∧
      (m ≠ .ibp → ∀ k,
        boxDomain.getUpper f'.x (fun i => f'.wu i k) (f'.bu k) = boxDomain.getUpper f.x (fun i => f.wu i k) (f.bu k) ∧
        boxDomain.getLower f'.x (fun i => f'.wl i k) (f'.bl k) = boxDomain.getLower f.x (fun i => f.wl i k) (f.bl k)) := by
  have h := onTop_reparam (absorb_reparam a t ha K b) q hq
  have hB : ImageBounds (Equiv.refl ι) a t xmax xmin xmax' xmin' := hb
  obtain ⟨f, f', h1, h2, hf, -⟩ := C119_crown_partial ha h (onTop_chain (n := .layer .input (.dense K b)) trivial hc) hB m m id eps slope fwd (.inl trivial)
  refine ⟨f, f', h1, h2, fun hm => ?_, fun hm k => ?_⟩
  · constructor <;> funext k
    · simpa using (hf.1 hm k).1
    · simpa using (hf.1 hm k).2
  · simpa using (hf.2 hm).2 k

end

/-! ### Concrete cases and limits -/

/-- `x ↦ relu(x)` for one neuron. -/
def oneRelu : Net ℚ (Fin 1) (Fin 1) := .layer .input (.relu (fun _ => 0) fun _ => 0)

/-- The product of two inputs. -/
def twoProduct : Net ℚ (Fin 2) (Fin 1) := .merge .multiply (.layer .input (.reshape fun _ => 0)) (.layer .input (.reshape fun _ => 1))

/-- Two hidden neurons. -/
def hiddenNet (K : Fin 1 → Fin 2 → ℚ) (b : Fin 2 → ℚ) (K2 : Fin 2 → Fin 1 → ℚ) (b2 : Fin 1 → ℚ) : Net ℚ (Fin 1) (Fin 1) :=
  .layer (.layer (.layer .input (.dense K b)) (.relu (fun _ => 0) fun _ => 0)) (.dense K2 b2)

/-- **C119 (hidden neurons may be renumbered).** -/
theorem C119_permute (K : Fin 1 → Fin 2 → ℚ) (b : Fin 2 → ℚ) (K2 : Fin 2 → Fin 1 → ℚ) (b2 : Fin 1 → ℚ) (xmin xmax : Fin 1 → ℚ)
    (m : Mode) (eps : ℚ) (slope : Slope) (fwd : Bool) :
    ∃ f f', (boxCrown m eps slope fwd xmin xmax).model (hiddenNet K b K2 b2) = .ok f ∧
      (boxCrown m eps slope fwd xmin xmax).model (hiddenNet (fun i j => K i (Equiv.swap 0 1 j)) (fun j => b (Equiv.swap 0 1 j))
        (fun i j => K2 (Equiv.swap 0 1 i) j) b2) = .ok f' ∧
      (m ≠ .affine → f'.uc = f.uc ∧ f'.lc = f.lc) ∧ (m ≠ .ibp → f'.wu = f.wu ∧ f'.bu = f.bu ∧ f'.wl = f.wl ∧ f'.bl = f.bl) := by
  have h : (hiddenNet K b K2 b2).Reparam True (Equiv.refl (Fin 1)) (fun _ => 1) (fun _ => 0)
      (hiddenNet (fun i j => K i (Equiv.swap 0 1 j)) (fun j => b (Equiv.swap 0 1 j)) (fun i j => K2 (Equiv.swap 0 1 i) j) b2)
      (Equiv.refl (Fin 1)) (fun _ => 1) fun _ => 0 := by
    refine .dense (.relu (.dense .input (Equiv.swap 0 1) (fun _ => 1) (fun _ => 0) ?_ _ _ _ _ ?_ ?_) ?_ ?_ _ _ _ _ ?_ ?_) _ _ _ ?_ _ _ _ _
      ?_ ?_ <;> simp
  obtain ⟨f, f', h1, h2, hf, -⟩ := C119_crown_partial (fun _ => one_ne_zero) h trivial (xmin := xmin) (xmax := xmax) (xmin' := xmin)
    (xmax' := xmax) (fun k => by simp) m m id eps slope fwd (.inl trivial)
  refine ⟨f, f', h1, h2, fun hm => ?_, fun hm => ?_⟩
  · constructor <;> funext k
    · simpa using (hf.1 hm k).1
    · simpa using (hf.1 hm k).2
  · have h2 := (hf.2 hm).1
    have u := fun k => image_coeff (s := Equiv.refl (Fin 1)) (a := fun _ => (1 : ℚ)) (t := fun _ => 0) (c := 1) (d := 0)
      fun z => by simpa using (h2 z k).1
    have l := fun k => image_coeff (s := Equiv.refl (Fin 1)) (a := fun _ => (1 : ℚ)) (t := fun _ => 0) (c := 1) (d := 0)
      fun z => by simpa using (h2 z k).2
    refine ⟨?_, ?_, ?_, ?_⟩
    · funext i k; simpa using (u k).1 i
    · funext k; simpa using (u k).2
    · funext i k; simpa using (l k).1 i
    · funext k; simpa using (l k).2

/-- **C119 (the guard).** Without the hypothesis on the guard the claim fails: `relu(x)` and the same neuron in units 10⁸ times smaller,
over the interval of half-length 10⁻⁸ around zero and its image.  The two functions correspond; the bounds do not. -/
theorem C119_guard_refuted :
    oneRelu.Reparam False (Equiv.refl _) (fun _ => 100000000) (fun _ => 0) oneRelu (Equiv.refl _) (fun _ => 100000000) (fun _ => 0) ∧
    ImageBounds (Equiv.refl (Fin 1)) (fun _ => (100000000 : ℚ)) (fun _ => 0) (fun _ => 1 / 100000000) (fun _ => -1 / 100000000) (fun _ => 1)
      (fun _ => -1) ∧
    ¬ ImageOutputs .affine (Equiv.refl (Fin 1)) (fun _ => (100000000 : ℚ)) (fun _ => 0) (Equiv.refl (Fin 1)) (fun _ => 100000000) (fun _ => 0)
      (oneRelu.forward boxDomain .affine (1 / 10000000) .vSlope
        (inputTensorsBox .affine (fun _ => -1 / 100000000) fun _ => 1 / 100000000))
      (oneRelu.forward boxDomain .affine (1 / 10000000) .vSlope (inputTensorsBox .affine (fun _ => -1) fun _ => 1)) := by
  refine ⟨.relu .input ?_ ?_ _ _ _ _ (fun _ => rfl) fun _ => rfl, ?_, fun h => ?_⟩
  · intro _; norm_num
  · exact False.elim
  · intro k; norm_num
  · exact absurd ((h.2 (by decide)).2 0).1 (by decide +kernel)

/-- **C119 (signs in a product).** The bounds of `(-x) * y` are not the opposites of the bounds of `x * y`, with constant bounds only:
`Multiply` keeps the better of two upper bounds and has a single lower bound. -/
theorem C119_product_sign_refuted :
    (∀ p : Fin 2 → ℚ, twoProduct.eval ![-p 0, p 1] 0 = - twoProduct.eval p 0) ∧
    (twoProduct.forward boxDomain .ibp 0 .vSlope (inputTensorsBox .ibp ![-2, -1] ![1, 1])).lc 0 = -5 ∧
    (twoProduct.forward boxDomain .ibp 0 .vSlope (inputTensorsBox .ibp ![-1, -1] ![2, 1])).uc 0 = 4 := by
  refine ⟨fun p => ?_, by decide +kernel, by decide +kernel⟩
  simp [twoProduct, Net.eval, Lay.eval, MergeOp.eval]

/-- `C119_forward_partial` is not vacuous: a ReLU neuron in units ten times smaller, with an epsilon guard that neither meets. -/
example : ImageOutputs .hybrid (Equiv.refl (Fin 1)) (fun _ => (10 : ℚ)) (fun _ => 0) (Equiv.refl (Fin 1)) (fun _ => 10) (fun _ => 0)
    (oneRelu.forward boxDomain .hybrid (1 / 10000000) .vSlope (inputTensorsBox .hybrid (fun _ => -1) fun _ => 2))
    (oneRelu.forward boxDomain .hybrid (1 / 10000000) .vSlope (inputTensorsBox .hybrid (fun _ => -10) fun _ => 20)) := by
  have h : oneRelu.Reparam False (Equiv.refl _) (fun _ => 10) (fun _ => 0) oneRelu (Equiv.refl _) (fun _ => 10) (fun _ => 0) :=
    .relu .input (fun _ => by norm_num) False.elim _ _ _ _ (fun _ => rfl) fun _ => rfl
  refine (C119_forward_partial (fun _ => by norm_num) h (fun k => by norm_num) .hybrid .hybrid id _ _ (.inr ⟨?_, ?_⟩)).1
  · refine ⟨trivial, fun _ k => ?_⟩; fin_cases k; decide +kernel
  · refine ⟨trivial, fun _ k => ?_⟩; fin_cases k; decide +kernel

/-- and the numbers: the neuron is bounded by `2/3 (x + 1)` over `[-1, 2]`, by `2/3 (x' + 10)` over `[-10, 20]`. -/
example : (oneRelu.forward boxDomain .hybrid (1 / 10000000) .vSlope (inputTensorsBox .hybrid (fun _ => -1) fun _ => 2)).bu 0 = 2 / 3 ∧
    (oneRelu.forward boxDomain .hybrid (1 / 10000000) .vSlope (inputTensorsBox .hybrid (fun _ => -10) fun _ => 20)).bu 0 = 20 / 3 := by
  decide +kernel

/-- `C119_input_units` with a negative factor: `x' = -255 x + 255`. -/
example : ∀ i : Fin 1, (fun _ => (255 : ℚ)) i = (fun _ => -255) i * (if 0 < (fun _ => (-255 : ℚ)) i then (fun _ => (1 : ℚ)) i else (fun _ => 0) i)
      + (fun _ => 255) i ∧ (fun _ => (0 : ℚ)) i = (fun _ => -255) i * (if 0 < (fun _ => (-255 : ℚ)) i then (fun _ => (0 : ℚ)) i
        else (fun _ => 1) i) + (fun _ => 255) i := by
  intro i; norm_num

end Decomon
