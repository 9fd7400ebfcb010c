import Verif.Model.Weights
import Verif.Props.Network

/-! Properties C91, C92: the bounds of a converted model when the weights of the original model change afterwards. -/

namespace Decomon

section Spec
variable {ι κ κ' : Type}

/-- Spec: the layer is not a `BatchNormalization`. -/
def Lay.NotBN {β : Type} : Lay β κ κ' → Prop
  | .batchNorm _ _ _ _ => False
  | _ => True

/-- Spec: there is no `BatchNormalization` in the network. -/
def Net.NoBN {β : Type} : {κ : Type} → Net β ι κ → Prop
  | _, .input => True
  | _, @Net.layer _ _ _ _ _ _ _ n l => n.NoBN ∧ l.NotBN
  | _, .merge _ n0 n1 => n0.NoBN ∧ n1.NoBN

/-- Spec: the parameters are admissible: the finetuning variables, in the memory `own`, are in `[0,1]`; the standard deviations, in the
memory `bn`, are positive. -/
def Lay.Admissible {α : Type} [Field α] [LinearOrder α] (own bn : ℕ → α) : Lay ℕ κ κ' → Prop
  | .relu gf gb => ∀ k, (0 ≤ own (gf k) ∧ own (gf k) ≤ 1) ∧ 0 ≤ own (gb k) ∧ own (gb k) ≤ 1
  | .batchNorm _ _ _ sd => ∀ k, 0 < bn (sd k)
  | _ => True

/-- Spec: see `Lay.Admissible`. -/
def Net.Admissible {α : Type} [Field α] [LinearOrder α] (own bn : ℕ → α) : {κ : Type} → Net ℕ ι κ → Prop
  | _, .input => True
  | _, @Net.layer _ _ _ _ _ _ _ n l => n.Admissible own bn ∧ l.Admissible own bn
  | _, .merge _ n0 n1 => n0.Admissible own bn ∧ n1.Admissible own bn

end Spec

section Lemmas
variable {X ι κ κ' α : Type} [Field α] [LinearOrder α]

/-- The backward layers of a network, layer by layer. -/
def Net.toBackward : {κ : Type} → Net ℕ ι κ → Net (ℕ ⊕ ℕ) ι κ
  | _, .input => .input
  | _, @Net.layer _ _ _ _ _ _ _ n l => .layer n.toBackward l.toBackward
  | _, .merge op n0 n1 => .merge op n0.toBackward n1.toBackward

theorem Lay.toDecomon_eq (l : Lay ℕ κ κ') (h : l.NotBN) : l.toDecomon true = l.toBackward := by
  cases l <;> first | rfl | exact h.elim

theorem Net.toDecomon_eq (n : Net ℕ ι κ) (h : n.NoBN) : n.toDecomon true = n.toBackward := by
  induction n with
  | input => rfl
  | layer n l ih => simp only [Net.toDecomon, Net.toBackward, ih h.1, l.toDecomon_eq h.2]
  | merge op n0 n1 ih0 ih1 => simp only [Net.toDecomon, Net.toBackward, ih0 h.1, ih1 h.2]

theorem Lay.toBackward_eval [Fintype κ] (l : Lay ℕ κ κ') (orig own : ℕ → α) :
    (l.toBackward.map (memory orig own)).eval = (l.map orig).eval := by
  cases l <;> rfl

theorem Net.toBackward_eval (n : Net ℕ ι κ) (orig own : ℕ → α) (p : ι → α) :
    (n.toBackward.map (memory orig own)).eval p = (n.map orig).eval p := by
  induction n with
  | input => rfl
  | layer n l ih => simp only [Net.toBackward, Net.map, Net.eval, ih, l.toBackward_eval]
  | merge op n0 n1 ih0 ih1 => simp only [Net.toBackward, Net.map, Net.eval, ih0, ih1]

theorem Lay.toBackward_WF (l : Lay ℕ κ κ') (orig own : ℕ → α) (h : l.Admissible own orig) :
    (l.toBackward.map (memory orig own)).WF := by
  cases l <;> first | trivial | exact h

theorem Net.toBackward_WF (n : Net ℕ ι κ) (orig own : ℕ → α) (h : n.Admissible own orig) :
    (n.toBackward.map (memory orig own)).WF := by
  induction n with
  | input => trivial
  | layer n l ih => exact ⟨ih h.1, l.toBackward_WF orig own h.2⟩
  | merge op n0 n1 ih0 ih1 => exact ⟨ih0 h.1, ih1 h.2⟩

theorem Net.toBackward_chain (n : Net ℕ ι κ) (r : ℕ ⊕ ℕ → α) (h : n.Chain) : (n.toBackward.map r).Chain := by
  induction n with
  | input => trivial
  | layer n l ih => exact ih h
  | merge op n0 n1 _ _ => exact h.elim

/-- Without sharing, no cell of the Keras model is read. -/
theorem Lay.toDecomon_false (l : Lay ℕ κ κ') (orig own : ℕ → α) : (l.toDecomon false).map (memory orig own) = l.map own := by
  cases l <;> rfl

theorem Net.toDecomon_false (n : Net ℕ ι κ) (orig own : ℕ → α) : (n.toDecomon false).map (memory orig own) = n.map own := by
  induction n with
  | input => rfl
  | layer n l ih => simp only [Net.toDecomon, Net.map, ih, l.toDecomon_false]
  | merge op n0 n1 ih0 ih1 => simp only [Net.toDecomon, Net.map, ih0, ih1]

theorem Lay.map_WF (l : Lay ℕ κ κ') (own : ℕ → α) (h : l.Admissible own own) : (l.map own).WF := by
  cases l <;> first | trivial | exact h

theorem Net.map_WF (n : Net ℕ ι κ) (own : ℕ → α) (h : n.Admissible own own) : (n.map own).WF := by
  induction n with
  | input => trivial
  | layer n l ih => exact ⟨ih h.1, l.map_WF own h.2⟩
  | merge op n0 n1 ih0 ih1 => exact ⟨ih0 h.1, ih1 h.2⟩

variable [Fintype ι] [DecidableEq ι]

/-- When the forward layers are not used, or read the same cells as the backward ones, the backward conversion is that of the network of
the values now in the cells of the Keras model. -/
theorem CrownCfg.nodeIn_eq (c : CrownCfg X ι α) (shared : Bool) (orig own : ℕ → α) (n : Net ℕ ι κ)
    (h : c.useForward = false ∨ (shared = true ∧ n.NoBN)) :
    c.nodeIn shared orig own n = c.node (n.toBackward.map (memory orig own)) := by
  have key : ∀ {κ : Type} (n : Net ℕ ι κ) (nd : CrownNode ι κ α), c.useForward = false ∨ (shared = true ∧ n.NoBN) →
      c.childInput ((n.toDecomon shared).map (memory orig own)) nd = c.childInput (n.toBackward.map (memory orig own)) nd := by
    intro κ n nd h
    rcases h with h | ⟨hs, h⟩
    · simp [CrownCfg.childInput, h]
    · rw [hs, n.toDecomon_eq h]
  induction n with
  | input => rfl
  | layer n l ih =>
    have h' : c.useForward = false ∨ (shared = true ∧ n.NoBN) := h.imp_right fun h => ⟨h.1, h.2.1⟩
    simp only [CrownCfg.nodeIn, Net.toBackward, Net.map, CrownCfg.node, ih h', key n _ h']
  | merge op n0 n1 ih0 ih1 =>
    have h0 : c.useForward = false ∨ (shared = true ∧ n0.NoBN) := h.imp_right fun h => ⟨h.1, h.2.1⟩
    have h1 : c.useForward = false ∨ (shared = true ∧ n1.NoBN) := h.imp_right fun h => ⟨h.1, h.2.2⟩
    simp only [CrownCfg.nodeIn, Net.toBackward, Net.map, CrownCfg.node, ih0 h0, ih1 h1, key _ _ h0, key _ _ h1]

end Lemmas

section C91
variable {X ι κ α : Type} [Fintype ι] [DecidableEq ι] [Field α] [LinearOrder α] [IsStrictOrderedRing α]

/-- C91, methods `forward-ibp`: whatever the weights of the Keras model have become since the conversion (`orig`), the bounds are
valid for the model as it is now.  Missing: models with `BatchNormalization`, refuted below. -/
theorem C91_forward_ibp_partial (D : PertDomain X ι α) (eps : α) (he : 0 < eps) (slope : Slope) (inp : Full X ι ι α)
    (S : Set (ι → α)) (hD : D.Sound inp.x S) (n : Net ℕ ι κ) (hb : n.NoBN) (orig own : ℕ → α) (ha : n.Admissible own orig)
    (p : ι → α) (hp : p ∈ S) (hi : Valid .ibp false inp p p) (k : κ) :
    (n.forwardIn D .ibp eps slope inp true orig own).lc k ≤ (n.map orig).eval p k ∧
    (n.map orig).eval p k ≤ (n.forwardIn D .ibp eps slope inp true orig own).uc k := by
  rw [Net.forwardIn, n.toDecomon_eq hb, ← n.toBackward_eval orig own p]
  exact C27_forward_valid_ibp D eps he slope inp S hD _ (n.toBackward_WF orig own ha) p hp hi k

/-- C91, methods `forward-*`.  Missing: `BatchNormalization`, refuted below, and slivers, as for C27. -/
theorem C91_forward_partial (D : PertDomain X ι α) (m : Mode) (eps : α) (he : 0 < eps) (slope : Slope) (inp : Full X ι ι α)
    (S : Set (ι → α)) (hD : D.Sound inp.x S) (n : Net ℕ ι κ) (hb : n.NoBN) (orig own : ℕ → α) (ha : n.Admissible own orig)
    (hs : ((n.toDecomon true).map (memory orig own)).SliverOK D m eps slope inp)
    (p : ι → α) (hp : p ∈ S) (hi : Valid m false inp p p) :
    Valid m false (n.forwardIn D m eps slope inp true orig own) p ((n.map orig).eval p) := by
  rw [n.toDecomon_eq hb] at hs
  rw [Net.forwardIn, n.toDecomon_eq hb, ← n.toBackward_eval orig own p]
  exact C27_forward_valid_partial D m eps he slope inp S hD _ (n.toBackward_WF orig own ha) hs p hp hi

/-- C91, methods `crown` (any value of `shared`, `BatchNormalization` included) and `crown-forward-*` (with `shared` and without
`BatchNormalization`), on a chain of layers.  Missing: `crown-forward-*` with `BatchNormalization`, refuted below, merge layers and
slivers, as for C28. -/
theorem C91_crown_partial (c : CrownCfg X ι α) (he : 0 < c.eps) (S : Set (ι → α)) (hD : c.D.Sound c.inp.x S)
    (hst : c.m = .ibp → c.D.Sound (c.stack c.inp.lc c.inp.uc) S) (n : Net ℕ ι κ) (hc : n.Chain) (shared : Bool)
    (h : c.useForward = false ∨ (shared = true ∧ n.NoBN)) (orig own : ℕ → α) (ha : n.Admissible own orig)
    (hs : c.SliverOK (n.toBackward.map (memory orig own)))
    (p : ι → α) (hp : p ∈ S) (hi : Valid c.m false c.inp p p) :
    ∃ out, c.modelIn shared orig own n = .ok out ∧ Valid c.m false out p ((n.map orig).eval p) := by
  rw [CrownCfg.modelIn, c.nodeIn_eq shared orig own n h, ← n.toBackward_eval orig own p]
  exact C28_crown_valid_partial c he S hD hst _ (n.toBackward_chain _ hc) (n.toBackward_WF orig own ha) hs p hp hi

end C91

section Witness

/-- `BatchNormalization` on one input: cells 0 (gamma), 1 (beta), 2 (mean), 3 (standard deviation). -/
def bnNet : Net ℕ (Fin 1) (Fin 1) := .layer .input (.batchNorm (fun _ => 0) (fun _ => 1) (fun _ => 2) (fun _ => 3))

/-- `BatchNormalization`, then ReLU; cell 4 is the finetuning variable. -/
def bnReluNet : Net ℕ (Fin 1) (Fin 1) := .layer bnNet (.relu (fun _ => 4) (fun _ => 4))

/-- The values at the conversion: the identity. -/
def bnBefore : ℕ → ℚ
  | 0 => 1
  | 3 => 1
  | 4 => 1
  | _ => 0

/-- The values later: beta is -5. -/
def bnAfter : ℕ → ℚ
  | 1 => -5
  | n => bnBefore n

/-- C91: a `BatchNormalization` is copied although `shared` is true.  `[1,2]`, later beta is -5: the model gives -4 at 1, the bounds of
`forward-ibp` are still `[1,2]`. -/
theorem C91_batchnorm_refuted :
    let out := bnNet.forwardIn boxDomain .ibp (1 / 10000000) .vSlope (inputTensorsBox .ibp (fun _ => 1) (fun _ => 2)) true bnAfter bnBefore
    bnNet.Admissible bnBefore bnAfter ∧ (bnNet.map bnAfter).eval (fun _ => 1) 0 = -4 ∧ out.lc 0 = 1 ∧ out.uc 0 = 2 := by
  refine ⟨⟨trivial, fun _ => by norm_num [bnAfter, bnBefore]⟩, ?_, ?_, ?_⟩ <;> decide +kernel

/-- C91: in `crown-forward-ibp` the intermediate bounds come from the copy and the rest from the current values.  `[1,2]`, later beta
is -5: the model gives 0, the bounds are `[-4,-3]`. -/
theorem C91_crown_forward_batchnorm_refuted :
    bnReluNet.Chain ∧ bnReluNet.Admissible bnBefore bnAfter ∧
    ∃ out, (boxCrown .ibp (1 / 10000000 : ℚ) .vSlope true (fun _ => 1) (fun _ => 2)).modelIn true bnAfter bnBefore bnReluNet = .ok out ∧
      (bnReluNet.map bnAfter).eval (fun _ => 1) 0 = 0 ∧ out.lc 0 = -4 ∧ out.uc 0 = -3 := by
  refine ⟨trivial, ⟨⟨trivial, fun _ => by norm_num [bnAfter, bnBefore]⟩, fun _ => by norm_num [bnAfter, bnBefore]⟩, _, rfl, ?_, ?_, ?_⟩ <;> decide +kernel

/-- `Dense(1)`, then ReLU: cells 0 (kernel), 1 (bias), 4 (finetuning). -/
def denseReluNet : Net ℕ (Fin 1) (Fin 1) :=
  .layer (.layer .input (.dense (fun _ _ => 0) (fun _ => 1))) (.relu (fun _ => 4) (fun _ => 4))

/-- The kernel is -1 instead of 1. -/
def kernelAfter : ℕ → ℚ
  | 0 => -1
  | n => bnBefore n

/-- Non-vacuity of C91: `Dense(1)`, ReLU meets the hypotheses and the bounds move: `[1,2]` at the conversion, `[0,0]` after. -/
example :
    denseReluNet.NoBN ∧ denseReluNet.Admissible bnBefore kernelAfter ∧
    (denseReluNet.forwardIn boxDomain .ibp (1 / 10000000 : ℚ) .vSlope (inputTensorsBox .ibp (fun _ => 1) (fun _ => 2)) true bnBefore
      bnBefore).uc 0 = 2 ∧
    (denseReluNet.forwardIn boxDomain .ibp (1 / 10000000 : ℚ) .vSlope (inputTensorsBox .ibp (fun _ => 1) (fun _ => 2)) true kernelAfter
      bnBefore).uc 0 = 0 := by
  refine ⟨⟨⟨trivial, trivial⟩, trivial⟩, ⟨⟨trivial, trivial⟩, fun _ => by norm_num [bnAfter, bnBefore]⟩, ?_, ?_⟩ <;> decide +kernel

end Witness

section C92
variable {X ι κ α : Type} [Fintype ι] [DecidableEq ι] [Field α] [LinearOrder α] [IsStrictOrderedRing α]

/-- C92, methods `forward-*` with `shared=False`: whatever happens to the Keras model afterwards (`orig`), the bounds are those of the
values at the conversion (`own`). -/
theorem C92_forward_fixed (D : PertDomain X ι α) (m : Mode) (eps : α) (slope : Slope) (inp : Full X ι ι α) (n : Net ℕ ι κ)
    (orig own : ℕ → α) : n.forwardIn D m eps slope inp false orig own = (n.map own).forward D m eps slope inp := by
  rw [Net.forwardIn, n.toDecomon_false]

/-- C92, `forward-ibp` with `shared=False`: the bounds stay valid for the model at the conversion, for all later values.  Missing: the
backward methods, refuted below. -/
theorem C92_forward_ibp_partial (D : PertDomain X ι α) (eps : α) (he : 0 < eps) (slope : Slope) (inp : Full X ι ι α)
    (S : Set (ι → α)) (hD : D.Sound inp.x S) (n : Net ℕ ι κ) (orig own : ℕ → α) (ha : n.Admissible own own)
    (p : ι → α) (hp : p ∈ S) (hi : Valid .ibp false inp p p) (k : κ) :
    (n.forwardIn D .ibp eps slope inp false orig own).lc k ≤ (n.map own).eval p k ∧
    (n.map own).eval p k ≤ (n.forwardIn D .ibp eps slope inp false orig own).uc k := by
  rw [C92_forward_fixed]
  exact C27_forward_valid_ibp D eps he slope inp S hD _ (n.map_WF own ha) p hp hi k

end C92

/-- C92: `crown` ignores `shared=False`: `Dense(1)`, ReLU on `[1,2]`; the kernel goes from 1 to -1 in the Keras model and the upper bound
of the converted model falls from 2 to 0, whereas the model at the conversion takes the value 2. -/
theorem C92_crown_refuted :
    (∃ out, (boxCrown .ibp (1 / 10000000 : ℚ) .vSlope false (fun _ => 1) (fun _ => 2)).modelIn false bnBefore bnBefore denseReluNet = .ok out ∧
      out.uc 0 = 2) ∧
    (∃ out, (boxCrown .ibp (1 / 10000000 : ℚ) .vSlope false (fun _ => 1) (fun _ => 2)).modelIn false kernelAfter bnBefore denseReluNet = .ok out ∧
      out.uc 0 = 0) ∧
    (denseReluNet.map bnBefore).eval (fun _ => 2) 0 = 2 := by
  refine ⟨⟨_, rfl, ?_⟩, ⟨_, rfl, ?_⟩, ?_⟩ <;> decide +kernel

/-- C92: with `crown-forward-ibp` and `shared=False` the bounds after a change are valid neither for the model at the conversion nor for the
model as it is: `Dense(1)`, ReLU on `[1,2]`, the kernel goes from 1 to -1; bounds `[-2,-1]`, values `[1,2]` before and 0 after. -/
theorem C92_crown_forward_refuted :
    ∃ out, (boxCrown .ibp (1 / 10000000 : ℚ) .vSlope true (fun _ => 1) (fun _ => 2)).modelIn false kernelAfter bnBefore denseReluNet = .ok out ∧
      out.lc 0 = -2 ∧ out.uc 0 = -1 ∧ (denseReluNet.map bnBefore).eval (fun _ => 1) 0 = 1 ∧
      (denseReluNet.map kernelAfter).eval (fun _ => 1) 0 = 0 := by
  refine ⟨_, rfl, ?_, ?_, ?_, ?_⟩ <;> decide +kernel

theorem denseReluNet_ok : denseReluNet.NoBN ∧ denseReluNet.Admissible bnBefore kernelAfter ∧ denseReluNet.Admissible bnBefore bnBefore :=
  ⟨⟨⟨trivial, trivial⟩, trivial⟩, ⟨⟨trivial, trivial⟩, fun _ => by norm_num [bnBefore]⟩, ⟨⟨trivial, trivial⟩, fun _ => by norm_num [bnBefore]⟩⟩

/-- C91 and C92 for `ReLU(w x)`, converted with `w = 1` and used with `w = -1`, on `[1, 2]`. -/
example (p : Fin 1 → ℚ) (hp : p ∈ Box (fun _ => 1) fun _ => 2) :
    (denseReluNet.map kernelAfter).eval p 0 ≤ (denseReluNet.forwardIn boxDomain .ibp (1 / 10000000) .vSlope (inputTensorsBox .ibp (fun _ => 1) fun _ => 2) true kernelAfter bnBefore).uc 0 ∧
    (denseReluNet.map bnBefore).eval p 0 ≤ (denseReluNet.forwardIn boxDomain .ibp (1 / 10000000) .vSlope (inputTensorsBox .ibp (fun _ => 1) fun _ => 2) false kernelAfter bnBefore).uc 0 :=
  ⟨(C91_forward_ibp_partial boxDomain _ (by norm_num) .vSlope _ _ (boxDomain_sound _ _) denseReluNet denseReluNet_ok.1 kernelAfter bnBefore denseReluNet_ok.2.1 p hp
      (C27_input_box .ibp _ _ _ hp) 0).2,
    (C92_forward_ibp_partial boxDomain _ (by norm_num) .vSlope _ _ (boxDomain_sound _ _) denseReluNet kernelAfter bnBefore denseReluNet_ok.2.2 p hp (C27_input_box .ibp _ _ _ hp) 0).2⟩

example (p : Fin 1 → ℚ) (hp : p ∈ Box (fun _ => -1) fun _ => 2) :
    Valid .hybrid false (denseReluNet.forwardIn boxDomain .hybrid (1 / 10000000) .vSlope (inputTensorsBox .hybrid (fun _ => -1) fun _ => 2) true kernelAfter bnBefore) p
      ((denseReluNet.map kernelAfter).eval p) := by
  refine C91_forward_partial boxDomain .hybrid _ (by norm_num) .vSlope _ _ (boxDomain_sound _ _) denseReluNet denseReluNet_ok.1 kernelAfter bnBefore denseReluNet_ok.2.1
    ⟨⟨trivial, trivial⟩, fun _ => ?_⟩ p hp (C27_input_box .hybrid _ _ _ hp)
  show ∀ k, ¬ _
  decide +kernel

example (shared : Bool) (p : Fin 1 → ℚ) (hp : p ∈ Box (fun _ => -1) fun _ => 2) :
    ∃ out, (boxCrown .ibp (1 / 10000000) .vSlope false (fun _ => -1) fun _ => 2).modelIn shared kernelAfter bnBefore denseReluNet = .ok out ∧
      Valid .ibp false out p ((denseReluNet.map kernelAfter).eval p) := by
  refine C91_crown_partial (boxCrown .ibp (1 / 10000000 : ℚ) .vSlope false (fun _ => -1) fun _ => 2) (by norm_num [boxCrown]) _ (boxDomain_sound _ _)
    (fun _ => ?_) denseReluNet trivial shared (.inl rfl) kernelAfter bnBefore denseReluNet_ok.2.1 ?_ p hp (C27_input_box .ibp _ _ _ hp)
  · exact boxDomain_sound _ _
  · refine ⟨⟨trivial, fun _ _ => trivial, fun h => absurd h (by simp [boxCrown])⟩, ?_, fun h => absurd h (by simp [boxCrown])⟩
    intro f hf
    injection hf with hf
    subst hf
    clear hp
    show ∀ k, ¬ _
    decide +kernel

/-- Non-vacuity of C92: the copy of a network with a `BatchNormalization` is admissible and its value differs from the one now. -/
example : bnReluNet.Admissible bnBefore bnBefore ∧
    (bnReluNet.map bnBefore).eval (fun _ => 1) 0 ≠ (bnReluNet.map bnAfter).eval (fun _ => 1) 0 := by
  refine ⟨⟨⟨trivial, fun _ => by norm_num [bnAfter, bnBefore]⟩, fun _ => by norm_num [bnAfter, bnBefore]⟩, by decide +kernel⟩

end Decomon
