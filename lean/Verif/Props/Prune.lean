import Verif.Lemmas.Prune
import Mathlib.Data.Fintype.Basic
import Mathlib.Data.Rat.Init
import Mathlib.Algebra.Order.Field.Rat
import Mathlib.Tactic.NormNum

/-!
C158: inputs, neurons and outputs that are not read, and neurons that are off over the box, do not matter for the bounds.
-/

namespace Decomon

section
variable {ι ι' κ κ' α : Type} [Fintype ι] [Fintype ι'] [DecidableEq ι] [DecidableEq ι'] [Field α] [LinearOrder α]

theorem SubFull.kept {ρ : ι' → ι} {r : κ' → κ} {f : Full ((ι → α) × (ι → α)) ι κ α} {f' : Full ((ι' → α) × (ι' → α)) ι' κ' α}
    (h : SubFull boxDomain boxDomain ρ r f f') : KeptBounds ρ r f f' := fun k =>
  ⟨h.uc k, h.lc k, h.bu k, h.bl k, fun i => ⟨h.wu i k, h.wl i k⟩, fun i hi => ⟨h.zu i hi k, h.zl i hi k⟩, h.upper k, h.lower k⟩

omit [Fintype ι] [Fintype ι'] [DecidableEq ι] [DecidableEq ι'] in
/-- **C158 (sanity).** What "without some inputs and neurons" means for the functions: output `k` of `n'` is output `r k` of `n`. -/
theorem C158_eval {ρ : ι' → ι} (hρ : Function.Injective ρ) {n : Net α ι κ} {n' : Net α ι' κ'} {r : κ' → κ} (h : n.Keeps ρ n' r) (x : ι → α) (k : κ') :
    n'.eval (fun i => x (ρ i)) k = n.eval x (r k) := by
  induction h with
  | input => rfl
  | dense h s hs K b hK ih =>
    simp only [Net.eval, Lay.eval]
    congr 1
    exact Fintype.sum_of_injective _ (h.injective hρ) _ _ (fun t ht => by rw [hK t ht, zero_mul]) fun t => by rw [ih]
  | linear h s hs L K b L' K' taps ht hsrc hK h0 ih =>
    simp only [Net.eval, Lay.eval]
    congr 1
    refine Fintype.sum_of_injective _ (ht k) _ _ (fun t h => by rcases h0 k t h with e | e <;> simp [e]) fun t => ?_
    simp only [hK, hsrc]
    cases L'.src k t with
    | none => rfl
    | some k => simp [ih]
  | relu h gf gb ih => simp only [Net.eval, Lay.eval, ih]
  | batchNorm h g b m sd ih => simp only [Net.eval, Lay.eval, ih]
  | reshape h s hs e e' he ih => simp only [Net.eval, Lay.eval, ih, he]
  | skip h ih => simp only [Net.eval, Lay.eval, ih]
  | merge op h0 h1 i0 i1 => simp only [Net.eval, i0, i1]

/-- **C158 (forward methods).** The bounds of the outputs that are kept are those of the network without the inputs and the neurons that they do not
read, over the box without these inputs; the removed inputs have the weight zero in the affine bounds. -/
theorem C158_forward {ρ : ι' → ι} (hρ : Function.Injective ρ) {n : Net α ι κ} {n' : Net α ι' κ'} {r : κ' → κ} (h : n.Keeps ρ n' r) (m mf : Mode) (eps : α)
    (slope : Slope) (xmin xmax : ι → α) :
    KeptBounds ρ r (convert2Mode boxDomain m mf (n.forward boxDomain m eps slope (inputTensorsBox m xmin xmax)))
      (convert2Mode boxDomain m mf (n'.forward boxDomain m eps slope (inputTensorsBox m (fun i => xmin (ρ i)) fun i => xmax (ρ i)))) :=
  ((h.forward hρ m eps slope (sub_input hρ m xmin xmax)).convert mf).kept

/-- **C158 (backward methods).** The same for the methods `crown` (`fwd = false`) and `crown-forward-*` (`fwd = true`); when the conversion of one of the
two networks raises, that of the other one raises the same exception. -/
theorem C158_crown {ρ : ι' → ι} (hρ : Function.Injective ρ) {n : Net α ι κ} {n' : Net α ι' κ'} {r : κ' → κ} (h : n.Keeps ρ n' r) (m : Mode) (eps : α)
    (slope : Slope) (fwd : Bool) (xmin xmax : ι → α) :
    SameResult (KeptBounds ρ r) ((boxCrown m eps slope fwd xmin xmax).model n)
      ((boxCrown m eps slope fwd (fun i => xmin (ρ i)) fun i => xmax (ρ i)).model n') := by
  have := (subCfg_box hρ m eps slope fwd xmin xmax).model h
  revert this
  cases (boxCrown m eps slope fwd xmin xmax).model n <;>
    cases (boxCrown m eps slope fwd (fun i => xmin (ρ i)) fun i => xmax (ρ i)).model n' <;> intro this
  · exact this
  · exact this
  · exact this
  · exact SubFull.kept this

/-- **C158 (ranges that are not read, forward methods).** The ranges of the inputs that the kept outputs do not read have no influence on their
bounds. -/
theorem C158_ranges {ρ : ι' → ι} (hρ : Function.Injective ρ) {n : Net α ι κ} {n' : Net α ι' κ'} {r : κ' → κ} (h : n.Keeps ρ n' r) (m mf : Mode) (eps : α)
    (slope : Slope) (xmin xmax ymin ymax : ι → α) (hx : ∀ i, ymin (ρ i) = xmin (ρ i) ∧ ymax (ρ i) = xmax (ρ i)) (k : κ') :
    let f := convert2Mode boxDomain m mf (n.forward boxDomain m eps slope (inputTensorsBox m xmin xmax))
    let g := convert2Mode boxDomain m mf (n.forward boxDomain m eps slope (inputTensorsBox m ymin ymax))
    g.uc (r k) = f.uc (r k) ∧ g.lc (r k) = f.lc (r k) ∧ g.bu (r k) = f.bu (r k) ∧ g.bl (r k) = f.bl (r k) ∧
      (∀ i, g.wu i (r k) = f.wu i (r k) ∧ g.wl i (r k) = f.wl i (r k)) ∧
      boxDomain.getUpper g.x (fun i => g.wu i (r k)) (g.bu (r k)) = boxDomain.getUpper f.x (fun i => f.wu i (r k)) (f.bu (r k)) ∧
      boxDomain.getLower g.x (fun i => g.wl i (r k)) (g.bl (r k)) = boxDomain.getLower f.x (fun i => f.wl i (r k)) (f.bl (r k)) := by
  intro f g
  have hf := C158_forward hρ h m mf eps slope xmin xmax k
  have hg := C158_forward hρ h m mf eps slope ymin ymax k
  simp only [hx] at hg
  obtain ⟨f1, f2, f3, f4, f5, f6, f7, f8⟩ := hf
  obtain ⟨g1, g2, g3, g4, g5, g6, g7, g8⟩ := hg
  refine ⟨g1.symm.trans f1, g2.symm.trans f2, g3.symm.trans f3, g4.symm.trans f4, fun i => ?_, g7.symm.trans f7, g8.symm.trans f8⟩
  by_cases hi : i ∈ Set.range ρ
  · obtain ⟨i, rfl⟩ := hi
    exact ⟨(g5 i).1.symm.trans (f5 i).1, (g5 i).2.symm.trans (f5 i).2⟩
  · exact ⟨(g6 i hi).1.trans (f6 i hi).1.symm, (g6 i hi).2.trans (f6 i hi).2.symm⟩

end

section Off
variable {ι κ μ ν α : Type} [Fintype ι] [DecidableEq ι] [Fintype κ] [DecidableEq κ] [Fintype μ] [Field α] [LinearOrder α] [IsStrictOrderedRing α]

/-- **C158 (neurons that are off, forward methods).** If the bounds computed for some neurons before the ReLU say that they are off, then the weights
that leave them have no influence on the bounds of the whole model. -/
theorem C158_off_forward (n : Net α ι κ) (gf gb : κ → α) (K K' : κ → μ → α) (b : μ → α) (q : Net α μ ν) (m : Mode) (eps : α) (slope : Slope)
    (xmin xmax : ι → α)
    (h : ∀ t, OffNeuron boxDomain m (n.forward boxDomain m eps slope (inputTensorsBox m xmin xmax)) t ∨ ∀ o, K' t o = K t o) :
    (Net.onTop (.layer (.layer n (.relu gf gb)) (.dense K' b)) q).forward boxDomain m eps slope (inputTensorsBox m xmin xmax) =
      (Net.onTop (.layer (.layer n (.relu gf gb)) (.dense K b)) q).forward boxDomain m eps slope (inputTensorsBox m xmin xmax) := by
  refine forward_onTop ?_ q
  exact denseT_congr boxDomain_zero fun t => (h t).imp_left fun h => h.relu eps slope gf

/-- **C158 (neurons that are off, method `crown`).** The same for `crown`, where the bounds before the ReLU are those that `crown` gives to the model cut
there. -/
theorem C158_off_crown (n : Net α ι κ) (gf gb : κ → α) (K K' : κ → μ → α) (b : μ → α) (q : Net α μ ν) (m : Mode) (eps : α) (slope : Slope)
    (xmin xmax : ι → α)
    (h : ∀ f, (boxCrown m eps slope false xmin xmax).model n = .ok f → ∀ t, OffNeuron boxDomain m f t ∨ ∀ o, K' t o = K t o) :
    (boxCrown m eps slope false xmin xmax).model (Net.onTop (.layer (.layer n (.relu gf gb)) (.dense K' b)) q) =
      (boxCrown m eps slope false xmin xmax).model (Net.onTop (.layer (.layer n (.relu gf gb)) (.dense K b)) q) := by
  have h1 := CrownCfg.node_off (boxCrown m eps slope false xmin xmax) n gf gb (K := K) (K' := K') b boxDomain_zero h
  have aux : ∀ {ν : Type} (q : Net α μ ν), (boxCrown m eps slope false xmin xmax).node (Net.onTop (.layer (.layer n (.relu gf gb)) (.dense K' b)) q) =
      (boxCrown m eps slope false xmin xmax).node (Net.onTop (.layer (.layer n (.relu gf gb)) (.dense K b)) q) := by
    intro ν q
    induction q with
    | input => exact h1
    | layer q l ih =>
      simp only [Net.onTop, CrownCfg.node, CrownCfg.childInput, ih]
      rfl
    | merge op q0 q1 i0 i1 =>
      simp only [Net.onTop, CrownCfg.node, CrownCfg.childInput, i0, i1]
      rfl
  simp only [CrownCfg.model, aux]

/-- **C158 (neurons that are off, methods `crown-forward-*`).** The same, where the bounds before the ReLU are those of the forward pass. -/
theorem C158_off_crown_forward (n : Net α ι κ) (gf gb : κ → α) (K K' : κ → μ → α) (b : μ → α) (q : Net α μ ν) (m : Mode) (eps : α) (slope : Slope)
    (xmin xmax : ι → α)
    (h : ∀ t, OffNeuron boxDomain m (n.forward boxDomain m eps slope (inputTensorsBox m xmin xmax)) t ∨ ∀ o, K' t o = K t o) :
    (boxCrown m eps slope true xmin xmax).model (Net.onTop (.layer (.layer n (.relu gf gb)) (.dense K' b)) q) =
      (boxCrown m eps slope true xmin xmax).model (Net.onTop (.layer (.layer n (.relu gf gb)) (.dense K b)) q) := by
  have h1 := CrownCfg.node_off (boxCrown m eps slope true xmin xmax) n gf gb (K := K) (K' := K') b boxDomain_zero fun f hf => by
    cases hf; exact h
  have h2 := C158_off_forward n gf gb K K' b .input m eps slope xmin xmax h
  have := (CrownCfg.node_onTop h1 h2 q).1
  simp only [CrownCfg.model, this]

variable {κ' : Type} [Fintype κ'] [DecidableEq κ'] {κ₀ : Type} [Fintype κ₀] [DecidableEq κ₀]

/-- The network `n0`, Dense, ReLU, Dense, `q`. -/
def Net.withHidden {κ : Type} [Fintype κ] [DecidableEq κ] (n0 : Net α ι κ₀) (K1 : κ₀ → κ → α) (b1 gf gb : κ → α) (K2 : κ → μ → α) (b2 : μ → α)
    (q : Net α μ ν) : Net α ι ν :=
  Net.onTop (.layer (.layer (.layer n0 (.dense K1 b1)) (.relu gf gb)) (.dense K2 b2)) q

omit [Fintype ι] [DecidableEq ι] [IsStrictOrderedRing α] in
theorem keeps_hidden (n0 : Net α ι κ₀) (K1 : κ₀ → κ → α) (b1 gf gb : κ → α) (K2 : κ → μ → α) (b2 : μ → α) (q : Net α μ ν) (r : κ' → κ)
    (hr : Function.Injective r) (h0 : ∀ t, t ∉ Set.range r → ∀ o, K2 t o = 0) :
    (n0.withHidden K1 b1 gf gb K2 b2 q).Keeps id
      (n0.withHidden (fun t k => K1 t (r k)) (fun k => b1 (r k)) (fun k => gf (r k)) (fun k => gb (r k)) (fun k o => K2 (r k) o) b2 q) id := by
  have h1 := (Net.Keeps.refl n0).dense r hr K1 b1 fun t ht => absurd ⟨t, rfl⟩ ht
  have h2 := (h1.relu (i := inferInstance) (j := inferInstance) (d := inferInstance) (i' := inferInstance) (j' := inferInstance) (d' := inferInstance)
    gf gb).dense id Function.injective_id K2 b2 h0
  exact h2.onTop q

open Classical in
/-- **C158 (removing the neurons that are off, forward methods).** A hidden layer can be cut down to the neurons `r k` if the bounds computed for all the
others say that they are off: the bounds of the model do not change. -/
theorem C158_remove_off_forward (n0 : Net α ι κ₀) (K1 : κ₀ → κ → α) (b1 gf gb : κ → α) (K2 : κ → μ → α) (b2 : μ → α) (q : Net α μ ν) (r : κ' → κ)
    (hr : Function.Injective r) (m : Mode) (eps : α) (slope : Slope) (xmin xmax : ι → α)
    (h : ∀ t, t ∉ Set.range r →
      OffNeuron boxDomain m ((Net.layer n0 (.dense K1 b1)).forward boxDomain m eps slope (inputTensorsBox m xmin xmax)) t) :
    KeptBounds id id ((n0.withHidden K1 b1 gf gb K2 b2 q).forward boxDomain m eps slope (inputTensorsBox m xmin xmax))
      ((n0.withHidden (fun t k => K1 t (r k)) (fun k => b1 (r k)) (fun k => gf (r k)) (fun k => gb (r k)) (fun k o => K2 (r k) o) b2 q).forward
        boxDomain m eps slope (inputTensorsBox m xmin xmax)) := by
  have h1 := C158_off_forward (.layer n0 (.dense K1 b1)) gf gb K2 (fun t o => if t ∈ Set.range r then K2 t o else 0) b2 q m eps slope xmin xmax fun t => by
    by_cases ht : t ∈ Set.range r
    · exact .inr fun o => if_pos ht
    · exact .inl (h t ht)
  have h2 := keeps_hidden n0 K1 b1 gf gb (fun t o => if t ∈ Set.range r then K2 t o else 0) b2 q r hr fun t ht o => if_neg ht
  simp only [Set.mem_range_self, if_true] at h2
  have h3 := (h2.forward Function.injective_id m eps slope (sub_input Function.injective_id m xmin xmax)).kept
  simp only [Net.withHidden] at h3 ⊢
  rw [h1] at h3
  exact h3

open Classical in
/-- **C158 (removing the neurons that are off, method `crown`).** -/
theorem C158_remove_off_crown (n0 : Net α ι κ₀) (K1 : κ₀ → κ → α) (b1 gf gb : κ → α) (K2 : κ → μ → α) (b2 : μ → α) (q : Net α μ ν) (r : κ' → κ)
    (hr : Function.Injective r) (m : Mode) (eps : α) (slope : Slope) (xmin xmax : ι → α)
    (h : ∀ f, (boxCrown m eps slope false xmin xmax).model (.layer n0 (.dense K1 b1)) = .ok f → ∀ t, t ∉ Set.range r → OffNeuron boxDomain m f t) :
    SameResult (KeptBounds id id) ((boxCrown m eps slope false xmin xmax).model (n0.withHidden K1 b1 gf gb K2 b2 q))
      ((boxCrown m eps slope false xmin xmax).model
        (n0.withHidden (fun t k => K1 t (r k)) (fun k => b1 (r k)) (fun k => gf (r k)) (fun k => gb (r k)) (fun k o => K2 (r k) o) b2 q)) := by
  have h1 := C158_off_crown (.layer n0 (.dense K1 b1)) gf gb K2 (fun t o => if t ∈ Set.range r then K2 t o else 0) b2 q m eps slope xmin xmax
    fun f hf t => by
      by_cases ht : t ∈ Set.range r
      · exact .inr fun o => if_pos ht
      · exact .inl (h f hf t ht)
  have h2 := keeps_hidden n0 K1 b1 gf gb (fun t o => if t ∈ Set.range r then K2 t o else 0) b2 q r hr fun t ht o => if_neg ht
  simp only [Set.mem_range_self, if_true] at h2
  have h3 := C158_crown Function.injective_id h2 m eps slope false xmin xmax
  simp only [Net.withHidden, id] at h3 ⊢
  rw [h1] at h3
  exact h3

end Off

/-! ### Concrete cases -/

theorem Net.Keeps.denseOf {ι ι' α κ κ' μ μ' : Type} [Field α] [LinearOrder α] [Fintype κ] [DecidableEq κ] [Fintype μ] [Fintype κ'] [DecidableEq κ']
    [Fintype μ'] {ρ : ι' → ι} {n : Net α ι κ} {n' : Net α ι' κ'} {r : κ' → κ} (h : n.Keeps ρ n' r) (s : μ' → μ) (hs : Function.Injective s)
    {K : κ → μ → α} {b : μ → α} (hK : ∀ t, t ∉ Set.range r → ∀ o, K t (s o) = 0) {K' : κ' → μ' → α} {b' : μ' → α}
    (h1 : ∀ t o, K' t o = K (r t) (s o)) (h2 : ∀ o, b' o = b (s o)) : Net.Keeps ρ (.layer n (.dense K b)) (.layer n' (.dense K' b')) s := by
  obtain rfl : K' = fun t o => K (r t) (s o) := funext fun t => funext fun o => h1 t o
  obtain rfl : b' = fun o => b (s o) := funext h2
  exact h.dense s hs K b hK

/-- Two inputs, three hidden neurons, two outputs; output 0 reads neither the second input nor the third neuron. -/
def wideNet : Net ℚ (Fin 2) (Fin 2) :=
  .layer (.layer (.layer .input (.dense ![![1, -1, 2], ![0, 0, 3]] ![0, 1, 0])) (.relu (fun _ => 1) fun _ => 1)) (.dense ![![1, 5], ![2, 6], ![0, 7]] ![1, 0])

/-- What output 0 reads. -/
def narrowNet : Net ℚ (Fin 1) (Fin 1) :=
  .layer (.layer (.layer .input (.dense ![![1, -1]] ![0, 1])) (.relu (fun _ => 1) fun _ => 1)) (.dense ![![1], ![2]] ![1])

theorem wideNet_keeps : wideNet.Keeps (fun _ : Fin 1 => 0) narrowNet fun _ => 0 := by
  have h1 : Net.Keeps (α := ℚ) (fun _ : Fin 1 => (0 : Fin 2)) (.layer .input (.dense ![![1, -1, 2], ![0, 0, 3]] ![0, 1, 0]))
      (.layer .input (.dense ![![1, -1]] ![0, 1])) (Fin.castSucc : Fin 2 → Fin 3) := by
    refine .denseOf .input _ (Fin.castSucc_injective 2) (fun t ht o => ?_) (fun t o => ?_) fun o => ?_
    · fin_cases t
      · exact absurd ⟨0, rfl⟩ ht
      · fin_cases o <;> rfl
    · fin_cases t; fin_cases o <;> rfl
    · fin_cases o <;> rfl
  refine .denseOf (.relu h1 _ _) _ (fun a b _ => Subsingleton.elim a b) (fun t ht o => ?_) (fun t o => ?_) fun o => ?_
  · fin_cases t
    · exact absurd ⟨0, rfl⟩ ht
    · exact absurd ⟨1, rfl⟩ ht
    · rfl
  · fin_cases t <;> fin_cases o <;> rfl
  · fin_cases o; rfl

theorem inj_fin1 {κ : Type} (f : Fin 1 → κ) : Function.Injective f := fun a b _ => Subsingleton.elim a b

/-- The hypotheses of C158_eval, C158_forward, C158_crown hold and the common bounds are not trivial. -/
example : narrowNet.eval (fun _ => 3) 0 = wideNet.eval ![3, 8] 0 := by
  have := C158_eval (inj_fin1 _) wideNet_keeps ![3, 8] 0
  exact this

example (slope : Slope) (xmin xmax : Fin 2 → ℚ) :=
  C158_forward (inj_fin1 _) wideNet_keeps .hybrid .ibp (1 / 10 ^ 7) slope xmin xmax

example : (wideNet.forward boxDomain .hybrid (1 / 10 ^ 7) .vSlope (inputTensorsBox .hybrid ![-1, -5] ![1, 5])).uc 0 = 6 ∧
    (narrowNet.forward boxDomain .hybrid (1 / 10 ^ 7) .vSlope (inputTensorsBox .hybrid ![-1] ![1])).uc 0 = 6 ∧
    (wideNet.forward boxDomain .hybrid (1 / 10 ^ 7) .vSlope (inputTensorsBox .hybrid ![-1, -5] ![1, 5])).wu 0 0 = -3 / 2 ∧
    (narrowNet.forward boxDomain .hybrid (1 / 10 ^ 7) .vSlope (inputTensorsBox .hybrid ![-1] ![1])).wu 0 0 = -3 / 2 := by
  decide +kernel

example (fwd : Bool) (xmin xmax : Fin 2 → ℚ) := C158_crown (inj_fin1 _) wideNet_keeps .affine (1 / 10 ^ 7) .aSlope fwd xmin xmax

/-- Output 0 does not see the range of the second input. -/
example (slope : Slope) : (convert2Mode boxDomain .hybrid .hybrid
      (wideNet.forward boxDomain .hybrid (1 / 10 ^ 7) slope (inputTensorsBox .hybrid ![-1, -5] ![1, 5]))).uc 0 =
    (convert2Mode boxDomain .hybrid .hybrid
      (wideNet.forward boxDomain .hybrid (1 / 10 ^ 7) slope (inputTensorsBox .hybrid ![-1, 70] ![1, 900]))).uc 0 :=
  (C158_ranges (inj_fin1 _) wideNet_keeps .hybrid .hybrid (1 / 10 ^ 7) slope ![-1, 70] ![1, 900] ![-1, -5] ![1, 5]
    (fun _ => ⟨rfl, rfl⟩) 0).1

/-- Three neurons on one input; over `[-1, 1]` the third one stays below -3. -/
def threeNeurons : Net ℚ (Fin 1) (Fin 3) := .layer .input (.dense ![![1, -1, 2]] ![0, 1, -5])

theorem threeNeurons_off (m : Mode) (slope : Slope) :
    OffNeuron boxDomain m (threeNeurons.forward boxDomain m (1 / 10 ^ 7) slope (inputTensorsBox m ![-1] ![1])) 2 := by
  cases m <;> simp only [OffNeuron] <;> cases slope <;> decide +kernel

theorem off_rows (m : Mode) (slope : Slope) (t : Fin 3) :
    OffNeuron boxDomain m (threeNeurons.forward boxDomain m (1 / 10 ^ 7) slope (inputTensorsBox m ![-1] ![1])) t ∨
      ∀ o : Fin 1, (![![1], ![2], ![1000]] : Fin 3 → Fin 1 → ℚ) t o = (![![1], ![2], ![-4]] : Fin 3 → Fin 1 → ℚ) t o := by
  fin_cases t
  · exact .inr fun o => by fin_cases o; rfl
  · exact .inr fun o => by fin_cases o; rfl
  · exact .inl (threeNeurons_off m slope)

example (m : Mode) (slope : Slope) (q : Net ℚ (Fin 1) (Fin 2)) :=
  C158_off_forward threeNeurons (fun _ => 1) (fun _ => 1) ![![1], ![2], ![-4]] ![![1], ![2], ![1000]] ![0] q m (1 / 10 ^ 7) slope ![-1] ![1]
    (off_rows m slope)

example (m : Mode) (slope : Slope) (q : Net ℚ (Fin 1) (Fin 2)) :=
  C158_off_crown_forward threeNeurons (fun _ => 1) (fun _ => 1) ![![1], ![2], ![-4]] ![![1], ![2], ![1000]] ![0] q m (1 / 10 ^ 7) slope ![-1] ![1]
    (off_rows m slope)

/-- The bounds of `crown` on the first layer. -/
theorem threeNeurons_crown : ∀ f, (boxCrown .hybrid (1 / 10 ^ 7) .vSlope false ![-1] ![1]).model threeNeurons = .ok f → OffNeuron boxDomain .hybrid f 2 := by
  intro f hf
  cases hf
  simp only [OffNeuron]
  decide +kernel

example (q : Net ℚ (Fin 1) (Fin 2)) :=
  C158_off_crown threeNeurons (fun _ => 1) (fun _ => 1) ![![1], ![2], ![-4]] ![![1], ![2], ![1000]] ![0] q .hybrid (1 / 10 ^ 7) .vSlope ![-1] ![1]
    fun f hf t => by
      fin_cases t
      · exact .inr fun o => by fin_cases o; rfl
      · exact .inr fun o => by fin_cases o; rfl
      · exact .inl (threeNeurons_crown f hf)

theorem castSucc_range (t : Fin 3) (ht : t ∉ Set.range (Fin.castSucc : Fin 2 → Fin 3)) : t = 2 := by
  fin_cases t
  · exact absurd ⟨0, rfl⟩ ht
  · exact absurd ⟨1, rfl⟩ ht
  · rfl

example (m : Mode) (slope : Slope) (q : Net ℚ (Fin 1) (Fin 2)) :=
  C158_remove_off_forward .input ![![1, -1, 2]] ![0, 1, -5] (fun _ => 1) (fun _ => 1) ![![1], ![2], ![-4]] ![0] q (Fin.castSucc : Fin 2 → Fin 3)
    (Fin.castSucc_injective 2) m (1 / 10 ^ 7) slope ![-1] ![1] fun t ht => castSucc_range t ht ▸ threeNeurons_off m slope

example (q : Net ℚ (Fin 1) (Fin 2)) :=
  C158_remove_off_crown .input ![![1, -1, 2]] ![0, 1, -5] (fun _ => 1) (fun _ => 1) ![![1], ![2], ![-4]] ![0] q (Fin.castSucc : Fin 2 → Fin 3)
    (Fin.castSucc_injective 2) .hybrid (1 / 10 ^ 7) .vSlope ![-1] ![1] fun f hf t ht => castSucc_range t ht ▸ threeNeurons_crown f hf

/-- **C158 (the limit).** The upper bound `≤ 0` alone is not enough: when both bounds are 0 the code takes the neuron for a linear
one (`index_linear` wins over `index_dead`), and the weights that leave it are read. -/
theorem C158_off_limit_refuted :
    ¬ ∀ (n : Net ℚ (Fin 1) (Fin 1)) (K K' : Fin 1 → Fin 1 → ℚ) (xmin xmax : Fin 1 → ℚ),
      (∀ t, (n.forward boxDomain .hybrid (1 / 10 ^ 7) .vSlope (inputTensorsBox .hybrid xmin xmax)).uc t ≤ 0) →
      (Net.layer (.layer n (.relu (fun _ => 1) fun _ => 1)) (.dense K' fun _ : Fin 1 => 0)).forward boxDomain .hybrid (1 / 10 ^ 7) .vSlope
          (inputTensorsBox .hybrid xmin xmax) =
        (Net.layer (.layer n (.relu (fun _ => 1) fun _ => 1)) (.dense K fun _ : Fin 1 => 0)).forward boxDomain .hybrid (1 / 10 ^ 7) .vSlope
          (inputTensorsBox .hybrid xmin xmax) := by
  intro h
  have := congrArg (fun f => f.wu 0 0) (h .input (fun _ _ => 1) (fun _ _ => 2) (fun _ => 0) (fun _ => 0) (by decide +kernel))
  revert this
  decide +kernel

end Decomon
