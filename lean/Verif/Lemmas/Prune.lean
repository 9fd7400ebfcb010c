import Verif.SpecPrune
import Verif.SpecSymm
import Mathlib.Algebra.BigOperators.Group.Finset.Basic
import Mathlib.Algebra.BigOperators.Fin
import Mathlib.Tactic.Ring

/-! Lemmas for C158: removing inputs and neurons that nothing reads. -/

namespace Decomon

section Full
variable {X X' ι ι' κ κ' μ μ' α : Type} [Field α] [LinearOrder α]

/-- The concretisations of the two domains agree on the forms that do not read the removed inputs. -/
def DomSub (D : PertDomain X ι α) (x : X) (D' : PertDomain X' ι' α) (x' : X') (ρ : ι' → ι) : Prop :=
  ∀ w : ι → α, (∀ i, i ∉ Set.range ρ → w i = 0) → ∀ b, D'.getUpper x' (fun i => w (ρ i)) b = D.getUpper x w b ∧
    D'.getLower x' (fun i => w (ρ i)) b = D.getLower x w b

/-- The tensors `f'` are the kept part of the tensors `f`. -/
structure SubFull (D : PertDomain X ι α) (D' : PertDomain X' ι' α) (ρ : ι' → ι) (r : κ' → κ) (f : Full X ι κ α) (f' : Full X' ι' κ' α) : Prop where
  dom : DomSub D f.x D' f'.x ρ
  uc : ∀ k, f'.uc k = f.uc (r k)
  lc : ∀ k, f'.lc k = f.lc (r k)
  wu : ∀ i k, f'.wu i k = f.wu (ρ i) (r k)
  wl : ∀ i k, f'.wl i k = f.wl (ρ i) (r k)
  bu : ∀ k, f'.bu k = f.bu (r k)
  bl : ∀ k, f'.bl k = f.bl (r k)
  zu : ∀ i, i ∉ Set.range ρ → ∀ k, f.wu i (r k) = 0
  zl : ∀ i, i ∉ Set.range ρ → ∀ k, f.wl i (r k) = 0

variable {D : PertDomain X ι α} {D' : PertDomain X' ι' α} {m : Mode} {ρ : ι' → ι} {r : κ' → κ} {f f1 : Full X ι κ α} {f' f1' : Full X' ι' κ' α}

theorem SubFull.upper (h : SubFull D D' ρ r f f') (k : κ') :
    D'.getUpper f'.x (fun i => f'.wu i k) (f'.bu k) = D.getUpper f.x (fun i => f.wu i (r k)) (f.bu (r k)) := by
  rw [← (h.dom _ (fun i hi => h.zu i hi k) _).1, h.bu]
  simp only [h.wu]

theorem SubFull.lower (h : SubFull D D' ρ r f f') (k : κ') :
    D'.getLower f'.x (fun i => f'.wl i k) (f'.bl k) = D.getLower f.x (fun i => f.wl i (r k)) (f.bl (r k)) := by
  rw [← (h.dom _ (fun i hi => h.zl i hi k) _).2, h.bl]
  simp only [h.wl]

theorem SubFull.tighten (h : SubFull D D' ρ r f f') (b1 b2 : Bool) : SubFull D D' ρ r (f.tighten D m b1 b2) (f'.tighten D' m b1 b2) := by
  unfold Full.tighten
  split
  · dsimp only
    split
    · exact ⟨h.dom, h.upper, h.lower, h.wu, h.wl, h.bu, h.bl, h.zu, h.zl⟩
    · exact ⟨h.dom, fun k => by simp only [h.uc, h.upper], fun k => by simp only [h.lc, h.lower], h.wu, h.wl, h.bu, h.bl, h.zu, h.zl⟩
  · exact h

theorem SubFull.minus (h : SubFull D D' ρ r f f') : SubFull D D' ρ r (minusT D m f) (minusT D' m f') := by
  have h := h.tighten (m := m) false false
  refine ⟨h.dom, ?_, ?_, ?_, ?_, ?_, ?_, ?_, ?_⟩ <;> intros <;> simp_all [minusT, h.uc, h.lc, h.wu, h.wl, h.bu, h.bl, h.zu, h.zl]

theorem SubFull.add (h : SubFull D D' ρ r f f') (h1 : SubFull D D' ρ r f1 f1') : SubFull D D' ρ r (addT D m f f1) (addT D' m f' f1') := by
  have h := h.tighten (m := m) true true
  have h1 := h1.tighten (m := m) true true
  refine ⟨h.dom, ?_, ?_, ?_, ?_, ?_, ?_, ?_, ?_⟩ <;> intros <;>
    simp_all [addT, h.uc, h.lc, h.wu, h.wl, h.bu, h.bl, h.zu, h.zl, h1.uc, h1.lc, h1.wu, h1.wl, h1.bu, h1.bl, h1.zu, h1.zl]

theorem SubFull.relu (h : SubFull D D' ρ r f f') (eps : α) (slope : Slope) (g : κ → α) :
    SubFull D D' ρ r (reluT D m false eps slope g f) (reluT D' m false eps slope (fun k => g (r k)) f') := by
  have h := h.tighten (m := m) true true
  refine ⟨h.dom, ?_, ?_, ?_, ?_, ?_, ?_, ?_, ?_⟩ <;> intros <;> simp_all [reluT, h.uc, h.lc, h.wu, h.wl, h.bu, h.bl, h.zu, h.zl]

theorem SubFull.batchNorm (h : SubFull D D' ρ r f f') (gamma beta mean sd : κ → α) :
    SubFull D D' ρ r (batchNormT D m gamma beta mean sd f)
      (batchNormT D' m (fun k => gamma (r k)) (fun k => beta (r k)) (fun k => mean (r k)) (fun k => sd (r k)) f') := by
  have h := h.tighten (m := m) false true
  refine ⟨h.dom, ?_, ?_, ?_, ?_, ?_, ?_, ?_, ?_⟩ <;> intros <;> simp_all [batchNormT, h.uc, h.lc, h.wu, h.wl, h.bu, h.bl, h.zu, h.zl]

theorem SubFull.reindex (h : SubFull D D' ρ r f f') (s : μ' → μ) (e : μ → κ) (e' : μ' → κ') (he : ∀ k, e (s k) = r (e' k)) :
    SubFull D D' ρ s (reindexT D m false e f) (reindexT D' m false e' f') := by
  have h := h.tighten (m := m) false true
  refine ⟨h.dom, ?_, ?_, ?_, ?_, ?_, ?_, ?_, ?_⟩ <;> intros <;> simp_all [reindexT, h.uc, h.lc, h.wu, h.wl, h.bu, h.bl, h.zu, h.zl]

theorem SubFull.addLayer (h : SubFull D D' ρ r f f') (h1 : SubFull D D' ρ r f1 f1') :
    SubFull D D' ρ r (addLayerT D m f [f1]) (addLayerT D' m f' [f1']) := by
  have d := h.dom
  have h := h.tighten (m := m) false true
  have h1 := h1.tighten (m := m) false true
  refine ⟨d, ?_, ?_, ?_, ?_, ?_, ?_, ?_, ?_⟩ <;> intros <;>
    simp_all [addLayerT, h.uc, h.lc, h.wu, h.wl, h.bu, h.bl, h.zu, h.zl, h1.uc, h1.lc, h1.wu, h1.wl, h1.bu, h1.bl, h1.zu, h1.zl]

theorem SubFull.averageLayer (h : SubFull D D' ρ r f f') (h1 : SubFull D D' ρ r f1 f1') :
    SubFull D D' ρ r (averageLayerT D m f [f1]) (averageLayerT D' m f' [f1']) := by
  have d := h.dom
  have h := h.tighten (m := m) false true
  have h1 := h1.tighten (m := m) false true
  refine ⟨d, ?_, ?_, ?_, ?_, ?_, ?_, ?_, ?_⟩ <;> intros <;>
    simp_all [averageLayerT, h.uc, h.lc, h.wu, h.wl, h.bu, h.bl, h.zu, h.zl, h1.uc, h1.lc, h1.wu, h1.wl, h1.bu, h1.bl, h1.zu, h1.zl]

theorem SubFull.multiply (h : SubFull D D' ρ r f f') (h1 : SubFull D D' ρ r f1 f1') :
    SubFull D D' ρ r (multiplyT D m f f1) (multiplyT D' m f' f1') := by
  have h := h.tighten (m := m) true true
  have h1 := h1.tighten (m := m) true true
  refine ⟨h.dom, ?_, ?_, ?_, ?_, ?_, ?_, ?_, ?_⟩ <;> intros <;>
    simp only [multiplyT, h.uc, h.lc, h.wu, h.wl, h.bu, h.bl, h1.uc, h1.lc, h1.wu, h1.wl, h1.bu, h1.bl]
  · rw [h.zu _ ‹_›, h.zl _ ‹_›, h1.zu _ ‹_›, h1.zl _ ‹_›]; simp
  · rw [h.zu _ ‹_›, h.zl _ ‹_›, h1.zu _ ‹_›, h1.zl _ ‹_›]; simp

theorem SubFull.maximum (h : SubFull D D' ρ r f f') (h1 : SubFull D D' ρ r f1 f1') (eps : α) :
    SubFull D D' ρ r (maximumT D m false eps (fun _ => 1) f f1) (maximumT D' m false eps (fun _ => 1) f' f1') :=
  ((h1.add h.minus).relu eps .vSlope fun _ => 1).add h

theorem SubFull.merge (h : SubFull D D' ρ r f f') (h1 : SubFull D D' ρ r f1 f1') (eps : α) (op : MergeOp) :
    SubFull D D' ρ r (op.forward D m eps f f1) (op.forward D' m eps f' f1') := by
  cases op with
  | add => exact h.addLayer h1
  | average => exact h.averageLayer h1
  | subtract => exact h.add h1.minus
  | maximum => exact h.maximum h1 eps
  | minimum => exact (h.minus.maximum h1.minus eps).minus
  | multiply => exact h.multiply h1

theorem SubFull.dense [Fintype κ] [Fintype κ'] (hr : Function.Injective r) (h : SubFull D D' ρ r f f') (s : μ' → μ) (K : κ → μ → α) (b : μ → α)
    (hK : ∀ t, t ∉ Set.range r → ∀ o, K t (s o) = 0) :
    SubFull D D' ρ s (denseT D m false K b f) (denseT D' m false (fun t o => K (r t) (s o)) (fun o => b (s o)) f') := by
  have h := h.tighten (m := m) false true
  have key : ∀ (g : α → α) (hg : g 0 = 0) (v : κ → α) (v' : κ' → α), (∀ k, v' k = v (r k)) → ∀ o, ∑ t, g (K (r t) (s o)) * v' t = ∑ t, g (K t (s o)) * v t :=
    fun g hg v v' hv o => Fintype.sum_of_injective r hr _ _ (fun t ht => by rw [hK t ht, hg, zero_mul]) fun t => by rw [hv]
  have kp := key (max 0) (max_self 0)
  have kn := key (min 0) (min_self 0)
  have key0 : ∀ (g : α → α) (hg : g 0 = 0) (v : κ → α), (∀ k, v (r k) = 0) → ∀ o, ∑ t, g (K t (s o)) * v t = 0 :=
    fun g hg v hv o => Finset.sum_eq_zero fun t _ => by
      by_cases ht : t ∈ Set.range r
      · obtain ⟨k, rfl⟩ := ht; rw [hv, mul_zero]
      · rw [hK t ht, hg, zero_mul]
  have zp := key0 (max 0) (max_self 0)
  have zn := key0 (min 0) (min_self 0)
  refine ⟨h.dom, fun o => ?_, fun o => ?_, fun i o => ?_, fun i o => ?_, fun o => ?_, fun o => ?_, fun i hi o => ?_, fun i hi o => ?_⟩ <;>
    simp only [denseT]
  · rw [kp _ _ h.uc, kn _ _ h.lc]
  · rw [kp _ _ h.lc, kn _ _ h.uc]
  · rw [kp _ _ (h.wu i), kn _ _ (h.wl i)]
  · rw [kp _ _ (h.wl i), kn _ _ (h.wu i)]
  · rw [kp _ _ h.bu, kn _ _ h.bl]
  · rw [kp _ _ h.bl, kn _ _ h.bu]
  · rw [zp _ (h.zu i hi), zn _ (h.zl i hi), add_zero, ite_self]
  · rw [zp _ (h.zl i hi), zn _ (h.zu i hi), add_zero, ite_self]

theorem apply_sub {T T' Q Q' : Type} [Fintype T] [Fintype T'] {s : μ' → μ} {L : LinIndex κ μ T Q} {K : Q → α} {L' : LinIndex κ' μ' T' Q'} {K' : Q' → α}
    {taps : μ' → T' → T} (ht : ∀ o, Function.Injective (taps o)) (hsrc : ∀ o t, L.src (s o) (taps o t) = (L'.src o t).map r)
    (hK : ∀ o t, K' (L'.kidx o t) = K (L.kidx (s o) (taps o t)))
    (h0 : ∀ o t, t ∉ Set.range (taps o) → L.src (s o) t = none ∨ K (L.kidx (s o) t) = 0) (g : α → α) (hg : g 0 = 0) (v : κ → α) (v' : κ' → α)
    (hv : ∀ k, v' k = v (r k)) (o : μ') : L'.apply (fun q => g (K' q)) v' o = L.apply (fun q => g (K q)) v (s o) :=
  Fintype.sum_of_injective (taps o) (ht o) _ _ (fun t h => by
    rcases h0 o t h with e | e
    · simp [e]
    · simp [e, hg]) fun t => by
    simp only [hK, hsrc]
    cases L'.src o t with
    | none => rfl
    | some k => simp [hv]

theorem apply_zero {T T' Q Q' : Type} [Fintype T] {s : μ' → μ} {L : LinIndex κ μ T Q} {K : Q → α} {L' : LinIndex κ' μ' T' Q'}
    {taps : μ' → T' → T} (hsrc : ∀ o t, L.src (s o) (taps o t) = (L'.src o t).map r)
    (h0 : ∀ o t, t ∉ Set.range (taps o) → L.src (s o) t = none ∨ K (L.kidx (s o) t) = 0) (g : α → α) (hg : g 0 = 0) (v : κ → α)
    (hv : ∀ k, v (r k) = 0) (o : μ') : L.apply (fun q => g (K q)) v (s o) = 0 :=
  Finset.sum_eq_zero fun t _ => by
    by_cases h : t ∈ Set.range (taps o)
    · obtain ⟨t, rfl⟩ := h
      rw [hsrc]
      cases L'.src o t with
      | none => simp
      | some k => simp [hv]
    · rcases h0 o t h with e | e
      · simp [e]
      · simp [e, hg]

theorem SubFull.linear {T T' Q Q' : Type} [Fintype T] [Fintype T'] (h : SubFull D D' ρ r f f') (s : μ' → μ) {L : LinIndex κ μ T Q} {K : Q → α} (b : μ → α)
    {L' : LinIndex κ' μ' T' Q'} {K' : Q' → α} {taps : μ' → T' → T} (ht : ∀ o, Function.Injective (taps o))
    (hsrc : ∀ o t, L.src (s o) (taps o t) = (L'.src o t).map r) (hK : ∀ o t, K' (L'.kidx o t) = K (L.kidx (s o) (taps o t)))
    (h0 : ∀ o t, t ∉ Set.range (taps o) → L.src (s o) t = none ∨ K (L.kidx (s o) t) = 0) :
    SubFull D D' ρ s (linearLayerT D m false L K b f) (linearLayerT D' m false L' K' (fun o => b (s o)) f') := by
  have h := h.tighten (m := m) false true
  have kp := apply_sub ht hsrc hK h0 (max 0) (max_self 0)
  have kn := apply_sub ht hsrc hK h0 (min 0) (min_self 0)
  have zp := apply_zero hsrc h0 (max 0) (max_self 0)
  have zn := apply_zero hsrc h0 (min 0) (min_self 0)
  refine ⟨h.dom, fun o => ?_, fun o => ?_, fun i o => ?_, fun i o => ?_, fun o => ?_, fun o => ?_, fun i hi o => ?_, fun i hi o => ?_⟩ <;>
    simp only [linearLayerT]
  · rw [kp _ _ h.uc, kn _ _ h.lc]
  · rw [kp _ _ h.lc, kn _ _ h.uc]
  · rw [kp _ _ (h.wu i), kn _ _ (h.wl i)]
  · rw [kp _ _ (h.wl i), kn _ _ (h.wu i)]
  · rw [kp _ _ h.bu, kn _ _ h.bl]
  · rw [kp _ _ h.bl, kn _ _ h.bu]
  · rw [zp _ (h.zu i hi), zn _ (h.zl i hi), add_zero, ite_self]
  · rw [zp _ (h.zl i hi), zn _ (h.zu i hi), add_zero, ite_self]

theorem SubFull.convert (h : SubFull D D' ρ r f f') (mf : Mode) : SubFull D D' ρ r (convert2Mode D m mf f) (convert2Mode D' m mf f') := by
  have h := h.tighten (m := m) (decide (m = .affine ∧ mf ≠ .affine)) (decide (m = .hybrid ∧ mf ≠ .affine))
  refine ⟨h.dom, ?_, ?_, ?_, ?_, ?_, ?_, ?_, ?_⟩ <;> intros <;> simp only [convert2Mode]
  · rw [h.uc]
  · rw [h.lc]
  · rw [h.wu]
  · rw [h.wl]
  · rw [h.bu]
  · rw [h.bl]
  · rw [h.zu _ ‹_›, ite_self]
  · rw [h.zl _ ‹_›, ite_self]

theorem Net.Keeps.injective (hρ : Function.Injective ρ) {κ κ' : Type} {n : Net α ι κ} {n' : Net α ι' κ'} {r : κ' → κ} (h : n.Keeps ρ n' r) :
    Function.Injective r := by
  induction h with
  | input => exact hρ
  | dense _ _ hs => exact hs
  | linear _ _ hs => exact hs
  | relu _ _ _ ih => exact ih
  | batchNorm _ _ _ _ _ ih => exact ih
  | reshape _ _ hs => exact hs
  | skip _ ih => exact ih
  | merge _ _ _ ih => exact ih

/-- The forward pass. -/
theorem Net.Keeps.forward (hρ : Function.Injective ρ) {κ κ' : Type} {n : Net α ι κ} {n' : Net α ι' κ'} {r : κ' → κ} (h : n.Keeps ρ n' r) (m : Mode)
    (eps : α) (slope : Slope) {inp : Full X ι ι α} {inp' : Full X' ι' ι' α} (hi : SubFull D D' ρ ρ inp inp') :
    SubFull D D' ρ r (n.forward D m eps slope inp) (n'.forward D' m eps slope inp') := by
  induction h with
  | input => exact hi
  | dense h s hs K b hK ih => exact SubFull.dense (h.injective hρ) ih s K b hK
  | linear h s hs L K b L' K' taps ht hsrc hK h0 ih => exact SubFull.linear ih s b ht hsrc hK h0
  | relu h gf gb ih => exact ih.relu eps slope gf
  | batchNorm h g b μ sd ih => exact ih.batchNorm g b μ sd
  | reshape h s hs e e' he ih => exact ih.reindex s e e' he
  | skip h ih => exact ih
  | merge op h0 h1 i0 i1 => exact i0.merge i1 eps op

theorem domSub_box [Fintype ι] [Fintype ι'] (hρ : Function.Injective ρ) (x : (ι → α) × (ι → α)) (x' : (ι' → α) × (ι' → α))
    (h : ∀ i, x'.1 i = x.1 (ρ i) ∧ x'.2 i = x.2 (ρ i)) : DomSub boxDomain x boxDomain x' ρ := by
  intro w hw b
  simp only [boxDomain, getUpperBox, getLowerBox]
  constructor <;> congr 1 <;> refine Fintype.sum_of_injective ρ hρ _ _ (fun i hi => ?_) fun i => ?_
  · rw [hw i hi]; simp
  · rw [(h i).1, (h i).2]
  · rw [hw i hi]; simp
  · rw [(h i).1, (h i).2]

theorem sub_input [Fintype ι] [Fintype ι'] [DecidableEq ι] [DecidableEq ι'] (hρ : Function.Injective ρ) (m : Mode) (xmin xmax : ι → α) :
    SubFull boxDomain boxDomain ρ ρ (inputTensorsBox m xmin xmax) (inputTensorsBox m (fun i => xmin (ρ i)) fun i => xmax (ρ i)) := by
  have z : ∀ i, i ∉ Set.range ρ → ∀ k, i ≠ ρ k := fun i hi k e => hi ⟨k, e.symm⟩
  exact ⟨domSub_box hρ _ _ fun i => ⟨rfl, rfl⟩, fun k => rfl, fun k => rfl, fun i k => by simp only [inputTensorsBox, hρ.eq_iff],
    fun i k => by simp only [inputTensorsBox, hρ.eq_iff], fun k => rfl, fun k => rfl, fun i hi k => by simp [inputTensorsBox, z i hi k],
    fun i hi k => by simp [inputTensorsBox, z i hi k]⟩

end Full

/-! ### The backward pass -/

section Back
variable {ι ι' κ κ' ν ν' α : Type} [Field α] [LinearOrder α]

/-- The bounds `b'` are the kept part of the bounds `b`. -/
structure SubBack (r : κ' → κ) (q : ν' → ν) (b : Back κ ν α) (b' : Back κ' ν' α) : Prop where
  wu : ∀ k n, b'.wu k n = b.wu (r k) (q n)
  wl : ∀ k n, b'.wl k n = b.wl (r k) (q n)
  bu : ∀ n, b'.bu n = b.bu (q n)
  bl : ∀ n, b'.bl n = b.bl (q n)
  zu : ∀ k, k ∉ Set.range r → ∀ n, b.wu k (q n) = 0
  zl : ∀ k, k ∉ Set.range r → ∀ n, b.wl k (q n) = 0

theorem SubBack.merge [Fintype κ] [Fintype κ'] {ρ : ι' → ι} {r : κ' → κ} (hr : Function.Injective r) {q : ν' → ν} {p : Back ι κ α} {p' : Back ι' κ' α}
    (hp : SubBack ρ r p p') {b : Back κ ν α} {b' : Back κ' ν' α} (hb : SubBack r q b b') :
    SubBack ρ q (mergeWithPrevious p b) (mergeWithPrevious p' b') := by
  have key : ∀ (g : α → α) (hg : g 0 = 0) (v : κ → α) (v' : κ' → α) (w : κ → α) (w' : κ' → α), (∀ k, v' k = v (r k)) → (∀ k, w' k = w (r k)) →
      (∀ k, k ∉ Set.range r → w k = 0) → ∑ k, v' k * g (w' k) = ∑ k, v k * g (w k) := fun g hg v v' w w' hv hw h0 =>
    Fintype.sum_of_injective r hr _ _ (fun k hk => by rw [h0 k hk, hg, mul_zero]) fun k => by rw [hv, hw]
  have kp := key (fun a => max a 0) (max_self 0)
  have kn := key (fun a => min a 0) (min_self 0)
  have key0 : ∀ (g : α → α) (hg : g 0 = 0) (v w : κ → α), (∀ k, v (r k) = 0) → (∀ k, k ∉ Set.range r → w k = 0) → ∑ k, v k * g (w k) = 0 :=
    fun g hg v w hv h0 => Finset.sum_eq_zero fun k _ => by
      by_cases hk : k ∈ Set.range r
      · obtain ⟨k, rfl⟩ := hk; rw [hv, zero_mul]
      · rw [h0 k hk, hg, mul_zero]
  have zp := key0 (fun a => max a 0) (max_self 0)
  have zn := key0 (fun a => min a 0) (min_self 0)
  refine ⟨fun i n => ?_, fun i n => ?_, fun n => ?_, fun n => ?_, fun i hi n => ?_, fun i hi n => ?_⟩ <;> simp only [mergeWithPrevious]
  · rw [kp _ _ _ _ (hp.wu i) (fun k => hb.wu k n) fun k hk => hb.zu k hk n, kn _ _ _ _ (hp.wl i) (fun k => hb.wu k n) fun k hk => hb.zu k hk n]
  · rw [kp _ _ _ _ (hp.wl i) (fun k => hb.wl k n) fun k hk => hb.zl k hk n, kn _ _ _ _ (hp.wu i) (fun k => hb.wl k n) fun k hk => hb.zl k hk n]
  · rw [kp _ _ _ _ hp.bu (fun k => hb.wu k n) fun k hk => hb.zu k hk n, kn _ _ _ _ hp.bl (fun k => hb.wu k n) fun k hk => hb.zu k hk n, hb.bu]
  · rw [kp _ _ _ _ hp.bl (fun k => hb.wl k n) fun k hk => hb.zl k hk n, kn _ _ _ _ hp.bu (fun k => hb.wl k n) fun k hk => hb.zl k hk n, hb.bl]
  · rw [zp _ _ (hp.zu i hi) fun k hk => hb.zu k hk n, zn _ _ (hp.zl i hi) fun k hk => hb.zu k hk n, add_zero]
  · rw [zp _ _ (hp.zl i hi) fun k hk => hb.zl k hk n, zn _ _ (hp.zu i hi) fun k hk => hb.zl k hk n, add_zero]

theorem subBack_diag [DecidableEq κ] [DecidableEq κ'] {r : κ' → κ} (hr : Function.Injective r) (wu bu wl bl : κ → α) (wu' bu' wl' bl' : κ' → α)
    (h : ∀ k, wu' k = wu (r k) ∧ bu' k = bu (r k) ∧ wl' k = wl (r k) ∧ bl' k = bl (r k)) :
    SubBack r r (Back.ofDiag wu bu wl bl) (Back.ofDiag wu' bu' wl' bl') := by
  have z : ∀ i, i ∉ Set.range r → ∀ k, i ≠ r k := fun i hi k e => hi ⟨k, e.symm⟩
  refine ⟨fun i k => ?_, fun i k => ?_, fun k => (h k).2.1, fun k => (h k).2.2.2, fun i hi k => if_neg (z i hi k), fun i hi k => if_neg (z i hi k)⟩ <;>
    simp only [Back.ofDiag, diagLike, hr.eq_iff, h]

theorem subBack_identity [DecidableEq κ] [DecidableEq κ'] {r : κ' → κ} (hr : Function.Injective r) :
    SubBack r r (Back.identity : Back κ κ α) Back.identity :=
  subBack_diag hr _ _ _ _ _ _ _ _ fun _ => ⟨rfl, rfl, rfl, rfl⟩

theorem subBack_reindex [DecidableEq κ] [DecidableEq κ'] {r : κ' → κ} (hr : Function.Injective r) (s : ν' → ν) (e : ν → κ) (e' : ν' → κ')
    (he : ∀ k, e (s k) = r (e' k)) : SubBack r s (backwardReindex e : Back κ ν α) (backwardReindex e') := by
  have z : ∀ i, i ∉ Set.range r → ∀ k, i ≠ r k := fun i hi k e => hi ⟨k, e.symm⟩
  refine ⟨fun i k => ?_, fun i k => ?_, fun k => rfl, fun k => rfl, fun i hi k => ?_, fun i hi k => ?_⟩ <;> simp only [backwardReindex, he]
  · simp only [hr.eq_iff]
  · simp only [hr.eq_iff]
  · exact if_neg (z i hi _)
  · exact if_neg (z i hi _)

theorem subBack_conv {T T' Q Q' : Type} [Fintype T] [Fintype T'] [DecidableEq κ] [DecidableEq κ'] {r : κ' → κ} (hr : Function.Injective r) {s : ν' → ν}
    {L : LinIndex κ ν T Q} {K : Q → α} (b : ν → α) {L' : LinIndex κ' ν' T' Q'} {K' : Q' → α} {taps : ν' → T' → T} (ht : ∀ o, Function.Injective (taps o))
    (hsrc : ∀ o t, L.src (s o) (taps o t) = (L'.src o t).map r) (hK : ∀ o t, K' (L'.kidx o t) = K (L.kidx (s o) (taps o t)))
    (h0 : ∀ o t, t ∉ Set.range (taps o) → L.src (s o) t = none ∨ K (L.kidx (s o) t) = 0) :
    SubBack r s (backwardConv L K b) (backwardConv L' K' fun o => b (s o)) := by
  have hw : ∀ i o, toeplitz L' K' i o = toeplitz L K (r i) (s o) := fun i o =>
    Fintype.sum_of_injective (taps o) (ht o) _ _ (fun t h => by
      rcases h0 o t h with e | e <;> simp [e]) fun t => by
      simp only [hK, hsrc]
      cases L'.src o t with
      | none => rfl
      | some k => simp [hr.eq_iff]
  have hz : ∀ i, i ∉ Set.range r → ∀ o, toeplitz L K i (s o) = 0 := fun i hi o => Finset.sum_eq_zero fun t _ => by
    by_cases h : t ∈ Set.range (taps o)
    · obtain ⟨t, rfl⟩ := h
      rw [hsrc]
      cases L'.src o t with
      | none => simp
      | some k =>
        have : r k ≠ i := fun e => hi ⟨k, e⟩
        simp [this]
    · rcases h0 o t h with e | e <;> simp [e]
  exact ⟨hw, hw, fun _ => rfl, fun _ => rfl, hz, hz⟩

theorem SameResult.map {A A' B B' : Type} {P : A → A' → Prop} {Q : B → B' → Prop} {x : Except PyErr A} {x' : Except PyErr A'} {f : A → B} {f' : A' → B'}
    (h : SameResult P x x') (hf : ∀ a a', P a a' → Q (f a) (f' a')) : SameResult Q (x.map f) (x'.map f') := by
  cases x <;> cases x' <;> first | exact hf _ _ h | exact h

theorem SameResult.bind {A A' B B' : Type} {P : A → A' → Prop} {Q : B → B' → Prop} {x : Except PyErr A} {x' : Except PyErr A'} {f : A → Except PyErr B}
    {f' : A' → Except PyErr B'} (h : SameResult P x x') (hf : ∀ a a', P a a' → SameResult Q (f a) (f' a')) : SameResult Q (x >>= f) (x' >>= f') := by
  cases x <;> cases x' <;> first | exact hf _ _ h | exact h | exact h.elim

end Back

section Nodes
variable {X X' ι ι' α : Type} [Fintype ι] [DecidableEq ι] [Fintype ι'] [DecidableEq ι'] [Field α] [LinearOrder α] {ρ : ι' → ι}

theorem SubFull.fuse {D : PertDomain X ι α} {D' : PertDomain X' ι' α} (hρ : Function.Injective ρ) {inp : Full X ι ι α} {inp' : Full X' ι' ι' α}
    (hi : SubFull D D' ρ ρ inp inp') (m : Mode) {ν ν' : Type} {q : ν' → ν} {b : Back ι ν α} {b' : Back ι' ν' α} (hb : SubBack ρ q b b') :
    SubBack ρ q (fuse m inp b) (fuse m inp' b') := by
  unfold Decomon.fuse
  split
  · exact SubBack.merge hρ ⟨hi.wu, hi.wl, hi.bu, hi.bl, hi.zu, hi.zl⟩ hb
  · exact hb

theorem SubBack.convert {D : PertDomain X ι α} {D' : PertDomain X' ι' α} {inp : Full X ι ι α} {inp' : Full X' ι' ι' α} (hi : SubFull D D' ρ ρ inp inp')
    {m : Mode} {stack : (ι → α) → (ι → α) → X} {stack' : (ι' → α) → (ι' → α) → X'}
    (hst : m = .ibp → DomSub D (stack inp.lc inp.uc) D' (stack' inp'.lc inp'.uc) ρ) {ν ν' : Type} {q : ν' → ν} {b : Back ι ν α} {b' : Back ι' ν' α}
    (hb : SubBack ρ q b b') : SubFull D D' ρ q (convert2BackwardMode D stack m inp b) (convert2BackwardMode D' stack' m inp' b') := by
  have hd : DomSub D (if m = .ibp then stack inp.lc inp.uc else inp.x) D' (if m = .ibp then stack' inp'.lc inp'.uc else inp'.x) ρ := by
    split
    · exact hst ‹_›
    · exact hi.dom
  refine ⟨?_, fun k => ?_, fun k => ?_, fun i k => ?_, fun i k => ?_, fun k => ?_, fun k => ?_, fun i h k => ?_, fun i h k => ?_⟩ <;>
    simp only [convert2BackwardMode]
  · split
    · exact hi.dom
    · exact hi.dom
  · rw [← (hd _ (fun i h => hb.zu i h k) _).1, hb.bu]; simp only [hb.wu]
  · rw [← (hd _ (fun i h => hb.zl i h k) _).2, hb.bl]; simp only [hb.wl]
  · rw [hb.wu]
  · rw [hb.wl]
  · rw [hb.bu]
  · rw [hb.bl]
  · rw [hb.zu i h, ite_self]
  · rw [hb.zl i h, ite_self]

/-- Two settings of the backward conversion, the second one without the removed inputs. -/
structure SubCfg (ρ : ι' → ι) (C : CrownCfg X ι α) (C' : CrownCfg X' ι' α) : Prop where
  inj : Function.Injective ρ
  m : C'.m = C.m
  eps : C'.eps = C.eps
  slope : C'.slope = C.slope
  fwd : C'.useForward = C.useForward
  inp : SubFull C.D C'.D ρ ρ C.inp C'.inp
  stack : C.m = .ibp → DomSub C.D (C.stack C.inp.lc C.inp.uc) C'.D (C'.stack C'.inp.lc C'.inp.uc) ρ

variable {C : CrownCfg X ι α} {C' : CrownCfg X' ι' α}

theorem SubCfg.child (hC : SubCfg ρ C C') {κ κ' : Type} {n : Net α ι κ} {n' : Net α ι' κ'} {r : κ' → κ} (h : n.Keeps ρ n' r)
    (hf : SameResult (SubBack ρ r) (C.node n).first (C'.node n').first) :
    SameResult (SubFull C.D C'.D ρ r) (C.childInput n (C.node n)) (C'.childInput n' (C'.node n')) := by
  unfold CrownCfg.childInput
  rw [hC.fwd]
  split
  · rw [hC.m, hC.eps, hC.slope]
    exact h.forward hC.inj C.m C.eps C.slope hC.inp
  · rw [hC.m]
    exact hf.map fun b b' hb => hb.convert hC.inp hC.stack

theorem SubCfg.layer (hC : SubCfg ρ C C') {κ μ κ' μ' : Type} {iκ : Fintype κ} {dκ : DecidableEq κ} {iμ : Fintype μ} {iκ' : Fintype κ'}
    {dκ' : DecidableEq κ'} {iμ' : Fintype μ'}
    {n : Net α ι κ} {n' : Net α ι' κ'} {l : Lay α κ μ} {l' : Lay α κ' μ'} {r : κ' → κ} {s : μ' → μ} (hs : Function.Injective s) (h : n.Keeps ρ n' r)
    (hl : ∀ f f', SubFull C.D C'.D ρ r f f' → SubBack r s (l.backward C.D C.m C.eps C.slope f) (l'.backward C'.D C.m C.eps C.slope f'))
    (i1 : SameResult (SubBack ρ r) (C.node n).first (C'.node n').first)
    (i2 : ∀ (ν ν' : Type) (q : ν' → ν) (b : Back κ ν α) (b' : Back κ' ν' α), SubBack r q b b' →
      SameResult (SubBack ρ q) ((C.node n).next ν b) ((C'.node n').next ν' b')) :
    SameResult (SubBack ρ s) (C.node (.layer n l)).first (C'.node (.layer n' l')).first ∧
    ∀ (ν ν' : Type) (q : ν' → ν) (b : Back μ ν α) (b' : Back μ' ν' α), SubBack s q b b' →
      SameResult (SubBack ρ q) ((C.node (.layer n l)).next ν b) ((C'.node (.layer n' l')).next ν' b') := by
  have key : SameResult (SubBack r s) ((C.childInput n (C.node n)).map (l.backward C.D C.m C.eps C.slope))
      ((C'.childInput n' (C'.node n')).map (l'.backward C'.D C'.m C'.eps C'.slope)) := by
    rw [hC.m, hC.eps, hC.slope]
    exact (hC.child h i1).map hl
  exact ⟨key.bind fun a a' ha => i2 _ _ _ _ _ ha, fun ν ν' q b b' hb => key.bind fun a a' ha => i2 _ _ _ _ _ (ha.merge hs hb)⟩

theorem SubCfg.node (hC : SubCfg ρ C C') {κ κ' : Type} {n : Net α ι κ} {n' : Net α ι' κ'} {r : κ' → κ} (h : n.Keeps ρ n' r) :
    SameResult (SubBack ρ r) (C.node n).first (C'.node n').first ∧
    ∀ (ν ν' : Type) (q : ν' → ν) (b : Back κ ν α) (b' : Back κ' ν' α), SubBack r q b b' →
      SameResult (SubBack ρ q) ((C.node n).next ν b) ((C'.node n').next ν' b') := by
  induction h with
  | input =>
    refine ⟨?_, fun ν ν' q b b' hb => ?_⟩
    · show SubBack ρ ρ (fuse C.m C.inp Back.identity) (fuse C'.m C'.inp Back.identity)
      rw [hC.m]; exact hC.inp.fuse hC.inj _ (subBack_identity hC.inj)
    · show SubBack ρ q (fuse C.m C.inp _) (fuse C'.m C'.inp _)
      rw [hC.m]; exact hC.inp.fuse hC.inj _ ((subBack_identity hC.inj).merge hC.inj hb)
  | dense h s hs K b hK ih =>
    exact hC.layer hs h (fun f f' hf => ⟨fun _ _ => rfl, fun _ _ => rfl, fun _ => rfl, fun _ => rfl, hK, hK⟩) ih.1 ih.2
  | linear h s hs L K b L' K' taps ht hsrc hK h0 ih =>
    exact hC.layer hs h (fun f f' hf => subBack_conv (h.injective hC.inj) b ht hsrc hK h0) ih.1 ih.2
  | relu h gf gb ih =>
    refine hC.layer (h.injective hC.inj) h (fun f f' hf => ?_) ih.1 ih.2
    have hf := hf.tighten (m := C.m) true true
    exact subBack_diag (h.injective hC.inj) _ _ _ _ _ _ _ _ fun k => by simp only [hf.uc, hf.lc, and_self]
  | batchNorm h g b μ sd ih =>
    refine hC.layer (h.injective hC.inj) h (fun f f' hf => ?_) ih.1 ih.2
    have hr := h.injective hC.inj
    refine ⟨fun i k => ?_, fun i k => ?_, fun k => rfl, fun k => rfl, fun i hi k => ?_, fun i hi k => ?_⟩ <;>
      simp only [Lay.backward, backwardBatchNorm, hr.eq_iff]
    · rw [if_neg fun e => hi ⟨k, e.symm⟩, zero_mul]
    · rw [if_neg fun e => hi ⟨k, e.symm⟩, zero_mul]
  | reshape h s hs e e' he ih => exact hC.layer hs h (fun f f' hf => subBack_reindex (h.injective hC.inj) s e e' he) ih.1 ih.2
  | skip h ih => exact hC.layer (h.injective hC.inj) h (fun f f' hf => subBack_identity (h.injective hC.inj)) ih.1 ih.2
  | merge op h0 h1 i0 i1 =>
    have c0 := hC.child h0 i0.1
    have c1 := hC.child h1 i1.1
    exact ⟨c0.bind fun _ _ _ => c1.bind fun _ _ _ => rfl, fun _ _ _ _ _ _ => c0.bind fun _ _ _ => c1.bind fun _ _ _ => rfl⟩

/-- The result of the backward conversion. -/
theorem SubCfg.model (hC : SubCfg ρ C C') {κ κ' : Type} {n : Net α ι κ} {n' : Net α ι' κ'} {r : κ' → κ} (h : n.Keeps ρ n' r) :
    SameResult (SubFull C.D C'.D ρ r) (C.model n) (C'.model n') := by
  unfold CrownCfg.model
  rw [hC.m]
  exact (hC.node h).1.map fun b b' hb => hb.convert hC.inp hC.stack

theorem subCfg_box (hρ : Function.Injective ρ) (m : Mode) (eps : α) (slope : Slope) (fwd : Bool) (xmin xmax : ι → α) :
    SubCfg ρ (boxCrown m eps slope fwd xmin xmax) (boxCrown m eps slope fwd (fun i => xmin (ρ i)) fun i => xmax (ρ i)) :=
  ⟨hρ, rfl, rfl, rfl, rfl, sub_input hρ m xmin xmax, fun _ => domSub_box hρ _ _ fun _ => ⟨rfl, rfl⟩⟩

end Nodes

/-! ### Keeping everything -/

section Refl
variable {ι ι' α : Type} [Field α] [LinearOrder α]

theorem Net.Keeps.onTop {ρ : ι' → ι} {κ : Type} {n : Net α ι κ} {n' : Net α ι' κ} (h : n.Keeps ρ n' id) {μ : Type} (q : Net α κ μ) :
    (n.onTop q).Keeps ρ (n'.onTop q) id := by
  induction q with
  | input => exact h
  | @layer κ1 κ2 _ _ _ q l ih =>
    cases l with
    | dense K b => exact .dense ih id Function.injective_id K b fun t ht => absurd ⟨t, rfl⟩ ht
    | linear L K b =>
      exact .linear ih id Function.injective_id L K b L K (fun _ => id) (fun _ => Function.injective_id) (fun o t => by simp)
        (fun o t => rfl) fun o t ht => absurd ⟨t, rfl⟩ ht
    | relu gf gb => exact .relu ih gf gb
    | batchNorm g b m sd => exact .batchNorm ih g b m sd
    | reshape e => exact .reshape ih id Function.injective_id e e fun _ => rfl
    | skip => exact .skip ih
  | merge op q0 q1 i0 i1 => exact .merge op i0 i1

theorem Net.onTop_input {κ : Type} (n : Net α ι κ) : (Net.input : Net α ι ι).onTop n = n := by
  induction n with
  | input => rfl
  | layer q l ih => simp only [Net.onTop, ih]
  | merge op q0 q1 i0 i1 => simp only [Net.onTop, i0, i1]

theorem Net.Keeps.refl {κ : Type} (n : Net α ι κ) : n.Keeps id n id := by
  have := (Net.Keeps.input (α := α) (ρ := (id : ι → ι))).onTop n
  rwa [Net.onTop_input] at this

end Refl

/-! ### Neurons that are off -/

section Off
variable {X ι κ α : Type} [Field α] [LinearOrder α] [IsStrictOrderedRing α]

theorem OffNeuron.tighten {D : PertDomain X ι α} {m : Mode} {f : Full X ι κ α} {k : κ} (h : OffNeuron D m f k) :
    (f.tighten D m true true).uc k ≤ 0 ∧ (f.tighten D m true true).lc k < 0 := by
  cases m with
  | ibp => exact h
  | affine => exact h
  | hybrid => exact ⟨min_le_iff.2 h.1, max_lt h.2.1 h.2.2⟩

theorem hull_off (eps : α) (slope : Slope) (gamma : α) {u l : α} (hu : u ≤ 0) (hl : l < 0) : linearHullRelu eps slope gamma u l = ⟨0, 0, 0, 0⟩ := by
  have d : indexDead u = 1 := by
    unfold indexDead kclip ksign
    rcases hu.lt_or_eq with h | rfl
    · simp [h]
      try norm_num
    · simp
  have i : indexLinear l = 0 := by
    unfold indexLinear kclip ksign
    simp [hl]
  simp only [linearHullRelu, d, i]
  simp

/-- The bounds of entry `k` are zero. -/
def ZeroAt (f : Full X ι κ α) (k : κ) : Prop := f.uc k = 0 ∧ f.lc k = 0 ∧ f.bu k = 0 ∧ f.bl k = 0 ∧ (∀ i, f.wu i k = 0) ∧ ∀ i, f.wl i k = 0

omit [IsStrictOrderedRing α] in
theorem ZeroAt.tighten {D : PertDomain X ι α} (h0 : ∀ x, D.getUpper x (fun _ => 0) 0 = 0 ∧ D.getLower x (fun _ => 0) 0 = 0) {f : Full X ι κ α} {k : κ}
    (h : ZeroAt f k) (m : Mode) (b1 b2 : Bool) : ZeroAt (f.tighten D m b1 b2) k := by
  obtain ⟨h1, h2, h3, h4, h5, h6⟩ := h
  have hu : D.getUpper f.x (fun i => f.wu i k) (f.bu k) = 0 := by simp only [h5, h3]; exact (h0 _).1
  have hl : D.getLower f.x (fun i => f.wl i k) (f.bl k) = 0 := by simp only [h6, h4]; exact (h0 _).2
  unfold Full.tighten
  split
  · dsimp only
    split
    · exact ⟨hu, hl, h3, h4, h5, h6⟩
    · exact ⟨by simp only [h1, hu, min_self], by simp only [h2, hl, max_self], h3, h4, h5, h6⟩
  · exact ⟨h1, h2, h3, h4, h5, h6⟩

theorem OffNeuron.relu {D : PertDomain X ι α} {m : Mode} {f : Full X ι κ α} {k : κ} (h : OffNeuron D m f k) (eps : α) (slope : Slope) (g : κ → α) :
    ZeroAt (reluT D m false eps slope g f) k := by
  obtain ⟨hu, hl⟩ := h.tighten
  have e := hull_off eps slope (g k) hu hl
  refine ⟨?_, ?_, ?_, ?_, fun i => ?_, fun i => ?_⟩ <;> simp only [reluT, e, Decomon.relu]
  · rw [max_eq_right hu, ite_self]
  · rw [max_eq_right hl.le, ite_self]
  all_goals simp

omit [IsStrictOrderedRing α] in
theorem denseT_congr [Fintype κ] {μ : Type} {D : PertDomain X ι α} (h0 : ∀ x, D.getUpper x (fun _ => 0) 0 = 0 ∧ D.getLower x (fun _ => 0) 0 = 0) {m : Mode}
    {f : Full X ι κ α} {K K' : κ → μ → α} {b : μ → α} (h : ∀ t, ZeroAt f t ∨ ∀ o, K' t o = K t o) : denseT D m false K' b f = denseT D m false K b f := by
  have h : ∀ t, ZeroAt (f.tighten D m false true) t ∨ ∀ o, K' t o = K t o := fun t => (h t).imp_left fun h => h.tighten h0 m false true
  have key : ∀ (g : α → α) (v : κ → α), (∀ t, ZeroAt (f.tighten D m false true) t → v t = 0) → ∀ o, ∑ t, g (K' t o) * v t = ∑ t, g (K t o) * v t :=
    fun g v hv o => Finset.sum_congr rfl fun t _ => by
      rcases h t with h | h
      · rw [hv t h, mul_zero, mul_zero]
      · rw [h]
  have kp := key (max 0)
  have kn := key (min 0)
  simp only [denseT, Full.mk.injEq, true_and]
  refine ⟨?_, ?_, ?_, ?_, ?_, ?_, ?_⟩
  · funext o; rw [kp _ (fun t h => h.1), kn _ (fun t h => h.2.1)]
  · funext i o; rw [kp _ (fun t h => h.2.2.2.2.1 i), kn _ (fun t h => h.2.2.2.2.2 i)]
  · funext o; rw [kp _ (fun t h => h.2.2.1), kn _ (fun t h => h.2.2.2.1)]
  · funext o; rw [kp _ (fun t h => h.2.1), kn _ (fun t h => h.1)]
  · funext i o; rw [kp _ (fun t h => h.2.2.2.2.2 i), kn _ (fun t h => h.2.2.2.2.1 i)]
  · funext o; rw [kp _ (fun t h => h.2.2.2.1), kn _ (fun t h => h.2.2.1)]
  · simp

omit [IsStrictOrderedRing α] in
theorem merge_congr {μ ν : Type} [Fintype κ] {p : Back μ κ α} {b b' : Back κ ν α}
    (h : ∀ k, (p.bu k = 0 ∧ p.bl k = 0 ∧ (∀ i, p.wu i k = 0) ∧ ∀ i, p.wl i k = 0) ∨ ∀ n, b'.wu k n = b.wu k n ∧ b'.wl k n = b.wl k n)
    (hu : b'.bu = b.bu) (hl : b'.bl = b.bl) : mergeWithPrevious p b' = mergeWithPrevious p b := by
  have key : ∀ (g : α → α) (v : κ → α) (w w' : κ → α), (∀ k, v k = 0 ∨ w' k = w k) → ∑ k, v k * g (w' k) = ∑ k, v k * g (w k) :=
    fun g v w w' hv => Finset.sum_congr rfl fun k _ => by
      rcases hv k with h | h
      · rw [h, zero_mul, zero_mul]
      · rw [h]
  have kp := key fun a => max a 0
  have kn := key fun a => min a 0
  simp only [mergeWithPrevious, Back.mk.injEq, hu, hl]
  refine ⟨?_, ?_, ?_, ?_⟩
  · funext i n
    rw [kp _ (fun k => b.wu k n) _ fun k => (h k).imp (fun h => h.2.2.1 i) fun h => (h n).1,
      kn _ (fun k => b.wu k n) _ fun k => (h k).imp (fun h => h.2.2.2 i) fun h => (h n).1]
  · funext n
    rw [kp _ (fun k => b.wu k n) _ fun k => (h k).imp (fun h => h.1) fun h => (h n).1,
      kn _ (fun k => b.wu k n) _ fun k => (h k).imp (fun h => h.2.1) fun h => (h n).1]
  · funext i n
    rw [kp _ (fun k => b.wl k n) _ fun k => (h k).imp (fun h => h.2.2.2 i) fun h => (h n).2,
      kn _ (fun k => b.wl k n) _ fun k => (h k).imp (fun h => h.2.2.1 i) fun h => (h n).2]
  · funext n
    rw [kp _ (fun k => b.wl k n) _ fun k => (h k).imp (fun h => h.2.1) fun h => (h n).2,
      kn _ (fun k => b.wl k n) _ fun k => (h k).imp (fun h => h.1) fun h => (h n).2]

theorem OffNeuron.backRelu [DecidableEq κ] {D : PertDomain X ι α} {m : Mode} {f : Full X ι κ α} {k : κ} (h : OffNeuron D m f k) (eps : α) (slope : Slope)
    (g : κ → α) : (backwardRelu D m eps slope g f).bu k = 0 ∧ (backwardRelu D m eps slope g f).bl k = 0 ∧
      (∀ i, (backwardRelu D m eps slope g f).wu i k = 0) ∧ ∀ i, (backwardRelu D m eps slope g f).wl i k = 0 := by
  obtain ⟨hu, hl⟩ := h.tighten
  have e := hull_off eps slope (g k) hu hl
  refine ⟨?_, ?_, fun i => ?_, fun i => ?_⟩ <;> simp only [backwardRelu, Back.ofDiag, diagLike, e, ite_self]

/-- A Dense layer after a ReLU layer in the backward pass: the weights of the neurons that are off are not read. -/
theorem CrownCfg.node_off [Fintype ι] [DecidableEq ι] [Fintype κ] [DecidableEq κ] {μ : Type} [Fintype μ] (C : CrownCfg X ι α) (n : Net α ι κ)
    (gf gb : κ → α) {K K' : κ → μ → α} (b : μ → α)
    (h0 : ∀ x, C.D.getUpper x (fun _ => 0) 0 = 0 ∧ C.D.getLower x (fun _ => 0) 0 = 0)
    (h : ∀ f, C.childInput n (C.node n) = .ok f → ∀ t, OffNeuron C.D C.m f t ∨ ∀ o, K' t o = K t o) :
    C.node (.layer (.layer n (.relu gf gb)) (.dense K' b)) = C.node (.layer (.layer n (.relu gf gb)) (.dense K b)) := by
  simp only [CrownCfg.node]
  cases hc : C.childInput n (C.node n) with
  | error e => cases hd : CrownCfg.childInput C (n.layer (Lay.relu gf gb)) _ <;> rfl
  | ok f =>
    have h := h f hc
    cases hd : CrownCfg.childInput C (n.layer (Lay.relu gf gb)) _ with
    | error e => rfl
    | ok f1 =>
      simp only [Except.map, bind, Except.bind, Lay.backward, CrownNode.mk.injEq]
      constructor
      · congr 1
        exact merge_congr (fun k => (h k).imp (fun h => h.backRelu C.eps C.slope gb) fun h n => ⟨h n, h n⟩) rfl rfl
      · funext ν b2
        congr 1
        refine merge_congr (fun k => (h k).imp (fun h => h.backRelu C.eps C.slope gb) fun h n => ?_) rfl rfl
        simp only [mergeWithPrevious, backwardDense, h, and_self]

/-- Two networks that the backward pass does not tell apart, below the same layers. -/
theorem CrownCfg.node_onTop [Fintype ι] [DecidableEq ι] {C : CrownCfg X ι α} {n n' : Net α ι κ} (h : C.node n' = C.node n)
    (hf : n'.forward C.D C.m C.eps C.slope C.inp = n.forward C.D C.m C.eps C.slope C.inp) {μ : Type} (q : Net α κ μ) :
    C.node (n'.onTop q) = C.node (n.onTop q) ∧
      (n'.onTop q).forward C.D C.m C.eps C.slope C.inp = (n.onTop q).forward C.D C.m C.eps C.slope C.inp := by
  induction q with
  | input => exact ⟨h, hf⟩
  | layer q l ih =>
    obtain ⟨i1, i2⟩ := ih
    simp only [Net.onTop, CrownCfg.node, Net.forward, CrownCfg.childInput, i1, i2, and_self]
  | merge op q0 q1 i0 i1 =>
    obtain ⟨i1, i2⟩ := i1
    obtain ⟨i3, i4⟩ := i0
    simp only [Net.onTop, CrownCfg.node, Net.forward, CrownCfg.childInput, i1, i2, i3, i4, and_self]

omit [IsStrictOrderedRing α] in
theorem forward_onTop {D : PertDomain X ι α} {m : Mode} {eps : α} {slope : Slope} {inp : Full X ι ι α} {n n' : Net α ι κ}
    (hf : n'.forward D m eps slope inp = n.forward D m eps slope inp) {μ : Type} (q : Net α κ μ) :
    (n'.onTop q).forward D m eps slope inp = (n.onTop q).forward D m eps slope inp := by
  induction q with
  | input => exact hf
  | layer q l ih => simp only [Net.onTop, Net.forward, ih]
  | merge op q0 q1 i0 i1 => simp only [Net.onTop, Net.forward, i0, i1]

theorem boxDomain_zero [Fintype ι] (x : (ι → α) × (ι → α)) :
    (boxDomain : PertDomain _ ι α).getUpper x (fun _ => 0) 0 = 0 ∧ (boxDomain : PertDomain _ ι α).getLower x (fun _ => 0) 0 = 0 := by
  constructor <;> simp [boxDomain, getUpperBox, getLowerBox]

end Off

end Decomon
