import Verif.Lemmas.Symm

/-! Helper lemmas on changes of units in the backward pass. -/

namespace Decomon

section Back
variable {ι ι' κ κ' ν ν' α : Type*} [Fintype ι] [Fintype ι'] [Field α] [LinearOrder α] [IsStrictOrderedRing α]

/-- The values at `y` of the upper bounds. -/
def Back.evalU (b : Back ι κ α) (y : ι → α) (k : κ) : α := affEval (fun i => b.wu i k) (b.bu k) y

/-- The values at `y` of the lower bounds. -/
def Back.evalL (b : Back ι κ α) (y : ι → α) (k : κ) : α := affEval (fun i => b.wl i k) (b.bl k) y

/-- The backward bounds `b'` are the image of `b`. -/
def ImageBack (s : ι ≃ ι') (a t : ι → α) (e : κ ≃ κ') (c d : κ → α) (b : Back ι κ α) (b' : Back ι' κ' α) : Prop :=
  ∀ y, ImageBounds e c d (b.evalU y) (b.evalL y) (b'.evalU (imagePoint s a t y)) (b'.evalL (imagePoint s a t y))

variable {s : ι ≃ ι'} {a t : ι → α}

/-- Backward bounds that are exact. -/
theorem imageBack_exact {e : κ ≃ κ'} {c d : κ → α} {b : Back ι κ α} {b' : Back ι' κ' α} (f : (ι → α) → κ → α) (f' : (ι' → α) → κ' → α)
    (h : ∀ y k, b.evalU y k = f y k ∧ b.evalL y k = f y k) (h' : ∀ y k, b'.evalU y k = f' y k ∧ b'.evalL y k = f' y k)
    (hf : ∀ y k, f' (imagePoint s a t y) (e k) = c k * f y k + d k) : ImageBack s a t e c d b b' := by
  intro y k
  rw [(h' _ _).1, (h' _ _).2, (h _ _).1, (h _ _).2, hf, ite_self]
  exact ⟨rfl, rfl⟩

variable [Fintype κ] [Fintype κ']

theorem evalU_merge (prev : Back ι κ α) (b : Back κ ν α) (y : ι → α) (n : ν) :
    (mergeWithPrevious prev b).evalU y n =
      ∑ k, max 0 (b.wu k n) * prev.evalU y k + ∑ k, min 0 (b.wu k n) * prev.evalL y k + b.bu n := by
  have h := taps_aff (fun k => max 0 (b.wu k n)) (fun k => min 0 (b.wu k n)) prev.wu prev.wl prev.bu prev.bl (b.bu n) y
  have e1 : ∀ r : κ → α, ∑ k, max (b.wu k n) 0 * r k = ∑ k, r k * max (b.wu k n) 0 := fun r =>
    Finset.sum_congr rfl fun k _ => mul_comm _ _
  have e2 : ∀ r : κ → α, ∑ k, min (b.wu k n) 0 * r k = ∑ k, r k * min (b.wu k n) 0 := fun r =>
    Finset.sum_congr rfl fun k _ => mul_comm _ _
  simp only [max_comm (0 : α), min_comm (0 : α), e1, e2] at h ⊢
  exact h

theorem evalL_merge (prev : Back ι κ α) (b : Back κ ν α) (y : ι → α) (n : ν) :
    (mergeWithPrevious prev b).evalL y n =
      ∑ k, max 0 (b.wl k n) * prev.evalL y k + ∑ k, min 0 (b.wl k n) * prev.evalU y k + b.bl n := by
  have h := taps_aff (fun k => max 0 (b.wl k n)) (fun k => min 0 (b.wl k n)) prev.wl prev.wu prev.bl prev.bu (b.bl n) y
  have e1 : ∀ r : κ → α, ∑ k, max (b.wl k n) 0 * r k = ∑ k, r k * max (b.wl k n) 0 := fun r =>
    Finset.sum_congr rfl fun k _ => mul_comm _ _
  have e2 : ∀ r : κ → α, ∑ k, min (b.wl k n) 0 * r k = ∑ k, r k * min (b.wl k n) 0 := fun r =>
    Finset.sum_congr rfl fun k _ => mul_comm _ _
  simp only [max_comm (0 : α), min_comm (0 : α), e1, e2] at h ⊢
  exact h

theorem ImageBack.merge {e : κ ≃ κ'} {c d : κ → α} (hc : ∀ k, c k ≠ 0) {e' : ν ≃ ν'} {c' d' : ν → α} (hc' : ∀ k, c' k ≠ 0)
    {prev : Back ι κ α} {prev' : Back ι' κ' α} {b : Back κ ν α} {b' : Back κ' ν' α} (hp : ImageBack s a t e c d prev prev')
    (hb : ImageBack e c d e' c' d' b b') : ImageBack s a t e' c' d' (mergeWithPrevious prev b) (mergeWithPrevious prev' b') := by
  intro y n
  rw [evalU_merge, evalU_merge, evalL_merge, evalL_merge]
  have hu := fun z => (hb z n).1
  have hl := fun z => (hb z n).2
  simp only [Back.evalU, Back.evalL] at hu hl
  by_cases h0 : 0 < c' n
  · simp only [if_pos h0] at hu hl ⊢
    obtain ⟨u1, u2⟩ := image_coeff hu
    obtain ⟨l1, l2⟩ := image_coeff hl
    have r1 := image_sum e c d (fun k => b.wu k n) (prev.evalU y) (prev.evalL y) (c' n) (fun k => b'.wu k (e' n)) _ _ (hc' n)
      (fun k => .inl ⟨u1 k, hc k⟩) (hp y) _ _ _ u2
    have r2 := image_sum e c d (fun k => b.wl k n) (prev.evalL y) (prev.evalU y) (c' n) (fun k => b'.wl k (e' n)) _ _ (hc' n)
      (fun k => .inl ⟨l1 k, hc k⟩) (fun k => (hp y k).symm) _ _ _ l2
    rw [if_pos h0] at r1 r2
    exact ⟨r1, r2⟩
  · simp only [if_neg h0] at hu hl ⊢
    obtain ⟨u1, u2⟩ := image_coeff hu
    obtain ⟨l1, l2⟩ := image_coeff hl
    have r1 := image_sum e c d (fun k => b.wl k n) (prev.evalU y) (prev.evalL y) (c' n) (fun k => b'.wu k (e' n)) _ _ (hc' n)
      (fun k => .inl ⟨u1 k, hc k⟩) (hp y) _ _ _ u2
    have r2 := image_sum e c d (fun k => b.wu k n) (prev.evalL y) (prev.evalU y) (c' n) (fun k => b'.wl k (e' n)) _ _ (hc' n)
      (fun k => .inl ⟨l1 k, hc k⟩) (fun k => (hp y k).symm) _ _ _ l2
    rw [if_neg h0] at r1 r2
    exact ⟨r1, r2⟩

theorem imageBack_identity [DecidableEq ι] [DecidableEq ι'] : ImageBack s a t s a t (Back.identity : Back ι ι α) Back.identity := by
  refine imageBack_exact (fun y => y) (fun y => y) (fun y k => ?_) (fun y k => ?_) fun y k => ?_
  · have := holds_identity (κ := ι) y k
    exact ⟨le_antisymm this.1 this.2, le_antisymm this.1 this.2⟩
  · have := holds_identity (κ := ι') y k
    exact ⟨le_antisymm this.1 this.2, le_antisymm this.1 this.2⟩
  · simp [imagePoint]

theorem evalU_diag [DecidableEq ι] (wu bu wl bl y : ι → α) (k : ι) :
    (Back.ofDiag wu bu wl bl).evalU y k = wu k * y k + bu k ∧ (Back.ofDiag wu bu wl bl).evalL y k = wl k * y k + bl k := by
  simp only [Back.evalU, Back.evalL, Back.ofDiag, diagLike_sum, and_self]

end Back

section Layers
variable {X X' ι ι' κ κ' α : Type*} [Fintype ι] [Fintype ι'] [Fintype κ] [Fintype κ'] [DecidableEq κ] [DecidableEq κ'] [Field α]
  [LinearOrder α] [IsStrictOrderedRing α] {D : PertDomain X ι α} {D' : PertDomain X' ι' α} {m : Mode} {T : (ι → α) → ι' → α} {e : κ ≃ κ'}
  {c d : κ → α} {f : Full X ι κ α} {f' : Full X' ι' κ' α}

theorem ImageFull.backRelu {eps : α} {slope : Slope} {g : κ → α} {g' : κ' → α} (h : ImageFull D D' m T e c (fun _ => 0) f f')
    (hc : ∀ k, 0 < c k) (hg : ∀ k, g' (e k) = g k)
    (hx : (∀ k, c k = 1) ∨
      (∀ k, ¬ ((f.tighten D m true true).lc k < 0 ∧ 0 < (f.tighten D m true true).uc k ∧
        (f.tighten D m true true).uc k - (f.tighten D m true true).lc k < eps)) ∧
      ∀ k, ¬ ((f'.tighten D' m true true).lc k < 0 ∧ 0 < (f'.tighten D' m true true).uc k ∧
        (f'.tighten D' m true true).uc k - (f'.tighten D' m true true).lc k < eps)) :
    ImageBack e c (fun _ => 0) e c (fun _ => 0) (backwardRelu D m eps slope g f) (backwardRelu D' m eps slope g' f') := by
  have ht := h.tight_const
  intro y k
  have hk := ht k
  rw [if_pos (hc k), if_pos (hc k), add_zero, add_zero] at hk
  have hh := hullRelu_scale (eps := eps) slope (g k) (hc k) (u := (f.tighten D m true true).uc k) (l := (f.tighten D m true true).lc k)
    (hx.imp (fun h => h k) fun ⟨h1, h2⟩ => ⟨h1 k, by have := h2 (e k); rwa [hk.1, hk.2] at this⟩)
  simp only [if_pos (hc k), backwardRelu]
  rw [(evalU_diag _ _ _ _ _ _).1, (evalU_diag _ _ _ _ _ _).2, (evalU_diag _ _ _ _ _ _).1, (evalU_diag _ _ _ _ _ _).2, hg, hk.1, hk.2, hh]
  simp only [imagePoint, Equiv.symm_apply_apply]
  constructor <;> ring

end Layers

section Nodes
variable {X X' ι ι' α : Type} [Fintype ι] [Fintype ι'] [DecidableEq ι] [DecidableEq ι'] [Field α] [LinearOrder α] [IsStrictOrderedRing α]

theorem imageBack_inst {κ κ' ν ν' : Type} (i1 i2 : Fintype κ) (j1 j2 : Fintype κ') {s : κ ≃ κ'} {a t : κ → α} {e : ν ≃ ν'} {c d : ν → α}
    {b : Back κ ν α} {b' : Back κ' ν' α} (h : @ImageBack κ κ' ν ν' α i1 j1 _ _ s a t e c d b b') :
    @ImageBack κ κ' ν ν' α i2 j2 _ _ s a t e c d b b' := by
  rw [Subsingleton.elim i2 i1, Subsingleton.elim j2 j1]; exact h

theorem imageBack_fuse {ν ν' : Type} {D : PertDomain X ι α} {D' : PertDomain X' ι' α} {m : Mode} {s : ι ≃ ι'} {a t : ι → α} {e : ν ≃ ν'}
    {c d : ν → α} (hc : ∀ k, c k ≠ 0) {inp : Full X ι ι α} {inp' : Full X' ι' ι' α}
    (hi : ImageFull D D' m (imagePoint s a t) s a t inp inp') {b : Back ι ν α} {b' : Back ι' ν' α} (h : ImageBack s a t e c d b b') :
    ImageBack s a t e c d (fuse m inp b) (fuse m inp' b') := by
  unfold fuse
  split
  · rename_i ha
    exact ImageBack.merge hi.ne hc (fun z => hi.aff ha z) h
  · exact h

theorem imageFull_convert {ν ν' : Type} {D : PertDomain X ι α} {D' : PertDomain X' ι' α} {m : Mode} {s : ι ≃ ι'} {a t : ι → α}
    {e : ν ≃ ν'} {c d : ν → α} (hc : ∀ k, c k ≠ 0) {inp : Full X ι ι α} {inp' : Full X' ι' ι' α}
    (hi : ImageFull D D' m (imagePoint s a t) s a t inp inp') (stack : (ι → α) → (ι → α) → X) (stack' : (ι' → α) → (ι' → α) → X')
    (hst : m = .ibp → DomImage D (stack inp.lc inp.uc) D' (stack' inp'.lc inp'.uc) (imagePoint s a t)) {b : Back ι ν α}
    {b' : Back ι' ν' α} (h : ImageBack s a t e c d b b') :
    ImageFull D D' m (imagePoint s a t) e c d (convert2BackwardMode D stack m inp b) (convert2BackwardMode D' stack' m inp' b') := by
  have hx : DomImage D (if m = .ibp then stack inp.lc inp.uc else inp.x) D' (if m = .ibp then stack' inp'.lc inp'.uc else inp'.x)
      (imagePoint s a t) := by
    by_cases hm : m = .ibp
    · rw [if_pos hm, if_pos hm]; exact hst hm
    · rw [if_neg hm, if_neg hm]; exact hi.dom
  refine ⟨hc, ?_, fun hib k => ?_, fun ha z k => ?_⟩
  · by_cases hm : m = .ibp
    · simp only [convert2BackwardMode, if_pos hm]; exact hi.dom
    · simp only [convert2BackwardMode, if_neg hm]; exact hi.dom
  · simp only [convert2BackwardMode, hib, if_true]
    exact hx (c k) (d k) (hc k) _ _ _ _ _ _ _ _ (fun z => (h z k).1) fun z => (h z k).2
  · simp only [Full.evalU, Full.evalL, convert2BackwardMode, ha, if_true]
    exact h z k

omit [IsStrictOrderedRing α] [LinearOrder α] in
theorem Net.Reparam.chain [LinearOrder α] {exact : Prop} {s : ι ≃ ι'} {a t : ι → α} {κ κ' : Type} {n : Net α ι κ} {n' : Net α ι' κ'}
    {e : κ ≃ κ'} {c d : κ → α} (h : n.Reparam exact s a t n' e c d) : n.Chain ↔ n'.Chain := by
  induction h with
  | input => exact Iff.rfl
  | dense _ _ _ _ _ _ _ _ _ _ _ ih => exact ih
  | linear _ _ _ _ _ _ _ _ _ _ _ _ _ _ _ ih => exact ih
  | relu _ _ _ _ _ _ _ _ _ ih => exact ih
  | batchNorm _ _ _ _ _ _ _ _ _ _ _ _ _ _ _ _ ih => exact ih
  | reshape _ _ _ _ _ ih => exact ih
  | skip _ ih => exact ih
  | _ => exact Iff.rfl

theorem Net.Reparam.ne_zero {exact : Prop} {s : ι ≃ ι'} {a t : ι → α} (ha : ∀ i, a i ≠ 0) {κ κ' : Type} {n : Net α ι κ}
    {n' : Net α ι' κ'} {e : κ ≃ κ'} {c d : κ → α} (h : n.Reparam exact s a t n' e c d) : ∀ k, c k ≠ 0 := by
  induction h with
  | input => exact ha
  | dense _ _ _ _ hc => exact hc
  | linear _ _ _ _ hc => exact hc
  | relu _ hc => exact fun k => (hc k).ne'
  | batchNorm _ _ _ hc => exact hc
  | reshape _ _ r _ _ ih => exact fun k => ih _
  | skip _ ih => exact ih
  | add _ _ ih _ => exact ih
  | average _ _ ih _ => exact ih
  | subtract _ _ ih _ => exact ih
  | maximum _ _ hc => exact fun k => (hc k).ne'
  | minimum _ _ hc => exact fun k => (hc k).ne'
  | maxMin _ _ hc => exact fun k => (hc k).ne
  | multiply _ _ h0 h1 => exact fun k => (mul_pos (h0 k) (h1 k)).ne'

/-- One layer of the backward pass, and what is done below it. -/
theorem CrownCfg.node_layer {κ μ κ' μ' : Type} [Fintype κ] [DecidableEq κ] [Fintype μ] [Fintype κ'] [DecidableEq κ'] [Fintype μ']
    (C : CrownCfg X ι α) (C' : CrownCfg X' ι' α) {s : ι ≃ ι'} {a t : ι → α}
    {n : Net α ι κ} {n' : Net α ι' κ'} {l : Lay α κ μ} {l' : Lay α κ' μ'} {e : κ ≃ κ'} {c d : κ → α} (hc : ∀ k, c k ≠ 0) {e' : μ ≃ μ'}
    {c' d' : μ → α} (hc' : ∀ k, c' k ≠ 0) {f : Full X ι κ α} {f' : Full X' ι' κ' α} (hf : C.childInput n (C.node n) = .ok f)
    (hf' : C'.childInput n' (C'.node n') = .ok f')
    (hl : ImageBack e c d e' c' d' (l.backward C.D C.m C.eps C.slope f) (l'.backward C'.D C'.m C'.eps C'.slope f'))
    (ih : ∀ {ν ν' : Type} {e₂ : ν ≃ ν'} {c₂ d₂ : ν → α}, (∀ k, c₂ k ≠ 0) → ∀ {b : Back κ ν α} {b' : Back κ' ν' α},
      ImageBack e c d e₂ c₂ d₂ b b' → ∃ r r', (C.node n).next ν b = .ok r ∧ (C'.node n').next ν' b' = .ok r' ∧
        ImageBack s a t e₂ c₂ d₂ r r') :
    (∃ r r', (C.node (.layer n l)).first = .ok r ∧ (C'.node (.layer n' l')).first = .ok r' ∧ ImageBack s a t e' c' d' r r') ∧
    ∀ {ν ν' : Type} {e₂ : ν ≃ ν'} {c₂ d₂ : ν → α}, (∀ k, c₂ k ≠ 0) → ∀ {b : Back μ ν α} {b' : Back μ' ν' α},
      ImageBack e' c' d' e₂ c₂ d₂ b b' → ∃ r r', (C.node (.layer n l)).next ν b = .ok r ∧ (C'.node (.layer n' l')).next ν' b' = .ok r' ∧
        ImageBack s a t e₂ c₂ d₂ r r' := by
  constructor
  · obtain ⟨r, r', h1, h2, h3⟩ := ih hc' hl
    refine ⟨r, r', ?_, ?_, h3⟩
    · simpa only [CrownCfg.node, hf, Except.map, bind, Except.bind] using h1
    · simpa only [CrownCfg.node, hf', Except.map, bind, Except.bind] using h2
  · intro ν ν' e₂ c₂ d₂ h0 b b' hb
    obtain ⟨r, r', h1, h2, h3⟩ := ih h0 (ImageBack.merge hc' h0 hl hb)
    refine ⟨r, r', ?_, ?_, h3⟩
    · simpa only [CrownCfg.node, hf, Except.map, bind, Except.bind] using h1
    · simpa only [CrownCfg.node, hf', Except.map, bind, Except.bind] using h2

/-! ### The layers as functions -/

omit [DecidableEq ι] [DecidableEq ι'] [LinearOrder α] [IsStrictOrderedRing α] in
theorem image_denseEval {μ μ' : Type} {e : ι ≃ ι'} {c d : ι → α} {e' : μ ≃ μ'} {c' d' : μ → α} {K : ι → μ → α} {b : μ → α}
    {K' : ι' → μ' → α} {b' : μ' → α} (hK : ∀ i j, K' (e i) (e' j) * c i = c' j * K i j)
    (hb : ∀ j, b' (e' j) + ∑ i, K' (e i) (e' j) * d i = c' j * b j + d' j) {y : ι → α} {y' : ι' → α}
    (hy : ∀ k, y' (e k) = c k * y k + d k) (j : μ) :
    (∑ i, K' i (e' j) * y' i) + b' (e' j) = c' j * ((∑ i, K i j * y i) + b j) + d' j := by
  rw [← e.sum_comp]
  have h : ∀ i, K' (e i) (e' j) * y' (e i) = c' j * (K i j * y i) + K' (e i) (e' j) * d i := fun i => by
    rw [hy, mul_add, ← mul_assoc, hK, mul_assoc]
  simp only [h, Finset.sum_add_distrib, ← Finset.mul_sum]
  linear_combination hb j

omit [Fintype ι] [Fintype ι'] [DecidableEq ι] [DecidableEq ι'] [LinearOrder α] [IsStrictOrderedRing α] in
theorem image_linearEval {O O' U U' Q Q' : Type} [Fintype U] [Fintype U'] {e : ι ≃ ι'} {c d : ι → α} {e' : O ≃ O'} {c' d' : O → α}
    {L : LinIndex ι O U Q} {K : Q → α} {b : O → α} {L' : LinIndex ι' O' U' Q'} {K' : Q' → α} {b' : O' → α} {taps : O → U ≃ U'}
    (hsrc : ∀ o t, L'.src (e' o) (taps o t) = (L.src o t).map e)
    (hK : ∀ o t r, L.src o t = some r → K' (L'.kidx (e' o) (taps o t)) * c r = c' o * K (L.kidx o t))
    (hb : ∀ o, b' (e' o) + ∑ t, K' (L'.kidx (e' o) (taps o t)) * (L.src o t).elim 0 d = c' o * b o + d' o) {y : ι → α} {y' : ι' → α}
    (hy : ∀ k, y' (e k) = c k * y k + d k) (o : O) :
    (∑ t, K' (L'.kidx (e' o) t) * (match L'.src (e' o) t with | none => 0 | some r => y' r)) + b' (e' o) =
      c' o * ((∑ t, K (L.kidx o t) * (match L.src o t with | none => 0 | some r => y r)) + b o) + d' o := by
  rw [← (taps o).sum_comp]
  have h : ∀ t, K' (L'.kidx (e' o) (taps o t)) * (match L'.src (e' o) (taps o t) with | none => 0 | some r => y' r) =
      c' o * (K (L.kidx o t) * (match L.src o t with | none => 0 | some r => y r)) +
        K' (L'.kidx (e' o) (taps o t)) * (L.src o t).elim 0 d := fun t => by
    rw [hsrc]
    cases hs : L.src o t with
    | none => simp
    | some r =>
      simp only [Option.map_some, Option.elim_some]
      rw [hy, mul_add, ← mul_assoc, hK o t r hs, mul_assoc]
  simp only [h, Finset.sum_add_distrib, ← Finset.mul_sum]
  linear_combination hb o

omit [LinearOrder α] [IsStrictOrderedRing α] in
theorem image_normEval {g s0 μ b g' s' μ' b' c d c' d' y y' : α} (hw : g' / s' * c = c' * (g / s0))
    (hb : g' / s' * (d - μ') + b' = c' * (b - g / s0 * μ) + d') (hy : y' = c * y + d) :
    g' * ((y' - μ') / s') + b' = c' * (g * ((y - μ) / s0) + b) + d' := by
  subst hy
  have h1 : g' * ((c * y + d - μ') / s') = g' / s' * c * y + g' / s' * (d - μ') := by ring
  rw [h1, hw]
  have h2 : g * ((y - μ) / s0) = g / s0 * y - g / s0 * μ := by ring
  rw [h2]
  linear_combination hb

omit [Fintype ι] [Fintype ι'] [DecidableEq ι] [DecidableEq ι'] in
theorem Net.Reparam.evalImage {exact : Prop} {s : ι ≃ ι'} {a t : ι → α} {κ κ' : Type} {n : Net α ι κ}
    {n' : Net α ι' κ'} {e : κ ≃ κ'} {c d : κ → α} (h : n.Reparam exact s a t n' e c d) (p : ι → α) (k : κ) :
    n'.eval (imagePoint s a t p) (e k) = c k * n.eval p k + d k := by
  induction h with
  | input => simp [Net.eval, imagePoint]
  | dense _ e' c' d' _ K b K' b' hK hb ih => exact image_denseEval hK hb ih k
  | linear _ e' c' d' _ L K b L' K' b' taps hsrc hK hb ih => exact image_linearEval hsrc hK hb ih k
  | relu _ hc _ _ _ _ _ _ _ ih =>
    simp only [Net.eval, Lay.eval, ih, add_zero]
    rw [mul_max_of_nonneg _ _ (hc k).le, mul_zero]
  | batchNorm _ c' d' _ g b μ sd g' b' μ' sd' _ _ hw hb ih => exact image_normEval (hw k) (hb k) (ih k)
  | reshape _ e' r r' hr ih => simp only [Net.eval, Lay.eval, hr, ih]
  | skip _ ih => exact ih k
  | add _ _ i0 i1 => simp only [Net.eval, MergeOp.eval, i0, i1]; ring
  | average _ _ i0 i1 => simp only [Net.eval, MergeOp.eval, i0, i1]; ring
  | subtract _ _ i0 i1 => simp only [Net.eval, MergeOp.eval, i0, i1]; ring
  | maximum _ _ hc _ i0 i1 =>
    simp only [Net.eval, MergeOp.eval, i0, i1]; rw [max_add_add_right, mul_max_of_nonneg _ _ (hc k).le]
  | minimum _ _ hc _ i0 i1 =>
    simp only [Net.eval, MergeOp.eval, i0, i1]; rw [min_add_add_right, mul_min_of_nonneg _ _ (hc k).le]
  | maxMin _ _ hc _ i0 i1 =>
    simp only [Net.eval, MergeOp.eval, i0, i1]; rw [min_add_add_right, mul_max_nonpos (hc k).le]
  | multiply _ _ _ _ i0 i1 => simp only [Net.eval, MergeOp.eval, i0, i1]; ring

theorem imagePoint_apply {κ κ' : Type} (e : κ ≃ κ') (c d y : κ → α) (k : κ) : imagePoint e c d y (e k) = c k * y k + d k := by
  simp [imagePoint]

theorem eval_of_holds {κ κ' : Type} [Fintype κ] {b : Back κ κ' α} (hw : b.wu = b.wl) (hb : b.bu = b.bl) {f : (κ → α) → κ' → α}
    (h : ∀ y, b.Holds y (f y)) (y : κ → α) (k : κ') : b.evalU y k = f y k ∧ b.evalL y k = f y k := by
  have h1 := (h y k).1
  have h2 := (h y k).2
  simp only [Back.evalU, Back.evalL]
  rw [hw, hb] at *
  exact ⟨le_antisymm h1 h2, le_antisymm h1 h2⟩

/-- The entry of `input_map` of a child. -/
theorem CrownCfg.child_image {exact : Prop} (C : CrownCfg X ι α) (C' : CrownCfg X' ι' α) (hm : C'.m = C.m) (he : C'.eps = C.eps)
    (hsl : C'.slope = C.slope) (hu : C'.useForward = C.useForward) {s : ι ≃ ι'} {a t : ι → α}
    (hi : ImageFull C.D C'.D C.m (imagePoint s a t) s a t C.inp C'.inp)
    (hst : C.m = .ibp → DomImage C.D (C.stack C.inp.lc C.inp.uc) C'.D (C'.stack C'.inp.lc C'.inp.uc) (imagePoint s a t))
    {κ κ' : Type} {n : Net α ι κ} {n' : Net α ι' κ'} {e : κ ≃ κ'} {c d : κ → α} (h : n.Reparam exact s a t n' e c d)
    (hx : exact ∨ (C.useForward = true → n.SliverOK C.D C.m C.eps C.slope C.inp) ∧
      (C'.useForward = true → n'.SliverOK C'.D C'.m C'.eps C'.slope C'.inp))
    (hf : ∃ r r', (C.node n).first = .ok r ∧ (C'.node n').first = .ok r' ∧ ImageBack s a t e c d r r') :
    ∃ f f', C.childInput n (C.node n) = .ok f ∧ C'.childInput n' (C'.node n') = .ok f' ∧
      ImageFull C.D C'.D C.m (imagePoint s a t) e c d f f' := by
  obtain ⟨D, stack, m, eps, slope, uf, inp⟩ := C
  obtain ⟨D', stack', m', eps', slope', uf', inp'⟩ := C'
  dsimp only at hm he hsl hu hi hst hx
  subst hm he hsl hu
  obtain ⟨r, r', h1, h2, h3⟩ := hf
  unfold CrownCfg.childInput
  dsimp only
  cases uf' with
  | true =>
    refine ⟨_, _, if_pos rfl, if_pos rfl, ?_⟩
    exact h.image D D' m' _ eps' slope' inp inp' hi (hx.imp_right fun hx => ⟨hx.1 rfl, hx.2 rfl⟩)
  | false =>
    refine ⟨convert2BackwardMode D stack m' inp r, convert2BackwardMode D' stack' m' inp' r', by simp [h1, Except.map],
      by simp [h2, Except.map], ?_⟩
    exact imageFull_convert (h.ne_zero hi.ne) hi stack stack' hst h3

/-- Both entries of `crown_` on a chain. -/
theorem CrownCfg.node_image {exact : Prop} (C : CrownCfg X ι α) (C' : CrownCfg X' ι' α) (hm : C'.m = C.m) (he : C'.eps = C.eps)
    (hsl : C'.slope = C.slope) (hu : C'.useForward = C.useForward) {s : ι ≃ ι'} {a t : ι → α}
    (hi : ImageFull C.D C'.D C.m (imagePoint s a t) s a t C.inp C'.inp)
    (hst : C.m = .ibp → DomImage C.D (C.stack C.inp.lc C.inp.uc) C'.D (C'.stack C'.inp.lc C'.inp.uc) (imagePoint s a t))
    {κ κ' : Type} {n : Net α ι κ} {n' : Net α ι' κ'} {e : κ ≃ κ'} {c d : κ → α} (h : n.Reparam exact s a t n' e c d) (hn : n.Chain)
    (hx : exact ∨ C.SliverOK n ∧ C'.SliverOK n') :
    (∃ r r', (C.node n).first = .ok r ∧ (C'.node n').first = .ok r' ∧ ImageBack s a t e c d r r') ∧
    ∀ [Fintype κ] [Fintype κ'], ∀ {ν ν' : Type} {e₂ : ν ≃ ν'} {c₂ d₂ : ν → α}, (∀ k, c₂ k ≠ 0) → ∀ {b : Back κ ν α} {b' : Back κ' ν' α},
      ImageBack e c d e₂ c₂ d₂ b b' → ∃ r r', (C.node n).next ν b = .ok r ∧ (C'.node n').next ν' b' = .ok r' ∧
        ImageBack s a t e₂ c₂ d₂ r r' := by
  induction h with
  | input =>
    have key : ∀ {ν ν' : Type} {e₂ : ν ≃ ν'} {c₂ d₂ : ν → α}, (∀ k, c₂ k ≠ 0) → ∀ {b : Back ι ν α} {b' : Back ι' ν' α},
        ImageBack s a t e₂ c₂ d₂ b b' → ∃ r r', (C.node .input).next ν b = .ok r ∧ (C'.node .input).next ν' b' = .ok r' ∧
          ImageBack s a t e₂ c₂ d₂ r r' := by
      intro ν ν' e₂ c₂ d₂ h0 b b' hb
      refine ⟨_, _, rfl, rfl, ?_⟩
      rw [hm]
      exact imageBack_fuse h0 hi (ImageBack.merge hi.ne h0 imageBack_identity hb)
    refine ⟨⟨_, _, rfl, rfl, ?_⟩, ?_⟩
    · rw [hm]; exact imageBack_fuse hi.ne hi imageBack_identity
    · intro _ _ ν ν' e₂ c₂ d₂ h0 b b' hb
      exact key h0 (imageBack_inst _ _ _ _ hb)
  | dense h e' c' d' hc K b K' b' hK hb ih =>
    obtain ⟨i1, i2⟩ := ih hn (hx.imp_right fun hx => ⟨hx.1.1, hx.2.1⟩)
    obtain ⟨f, f', hf, hf', hff⟩ := C.child_image C' hm he hsl hu hi hst h (hx.imp_right fun hx => ⟨hx.1.2.2, hx.2.2.2⟩) i1
    have := C.node_layer C' (h.ne_zero hi.ne) hc (l := .dense K b) (l' := .dense K' b') hf hf'
      (imageBack_exact _ _ (eval_of_holds rfl rfl fun y => holds_dense K b y) (eval_of_holds rfl rfl fun y => holds_dense K' b' y)
        fun y k => image_denseEval hK hb (imagePoint_apply _ _ _ y) k) i2
    refine ⟨this.1, ?_⟩
    intro _ _ ν ν' e₂ c₂ d₂ h0 b b' hb
    exact this.2 h0 (imageBack_inst _ _ _ _ hb)
  | linear h e' c' d' hc L K b L' K' b' taps hsrc hK hb ih =>
    obtain ⟨i1, i2⟩ := ih hn (hx.imp_right fun hx => ⟨hx.1.1, hx.2.1⟩)
    obtain ⟨f, f', hf, hf', hff⟩ := C.child_image C' hm he hsl hu hi hst h (hx.imp_right fun hx => ⟨hx.1.2.2, hx.2.2.2⟩) i1
    have := C.node_layer C' (h.ne_zero hi.ne) hc (l := .linear L K b) (l' := .linear L' K' b') hf hf'
      (imageBack_exact _ _ (eval_of_holds rfl rfl fun y => holds_conv L K b y) (eval_of_holds rfl rfl fun y => holds_conv L' K' b' y)
        fun y k => image_linearEval hsrc hK hb (imagePoint_apply _ _ _ y) k) i2
    refine ⟨this.1, ?_⟩
    intro _ _ ν ν' e₂ c₂ d₂ h0 b b' hb
    exact this.2 h0 (imageBack_inst _ _ _ _ hb)
  | relu h hc hex gf gb gf' gb' _ hg ih =>
    obtain ⟨i1, i2⟩ := ih hn (hx.imp_right fun hx => ⟨hx.1.1, hx.2.1⟩)
    obtain ⟨f, f', hf, hf', hff⟩ := C.child_image C' hm he hsl hu hi hst h (hx.imp_right fun hx => ⟨hx.1.2.2, hx.2.2.2⟩) i1
    have hl := hff.backRelu (eps := C.eps) (slope := C.slope) hc hg (hx.imp hex fun hx => ⟨hx.1.2.1 f hf, by
      have := hx.2.2.1 f' hf'
      simp only [Lay.BackSliverOK, hm, he] at this
      exact this⟩)
    have := C.node_layer C' (h.ne_zero hi.ne) (h.ne_zero hi.ne) (l := .relu gf gb) (l' := .relu gf' gb') hf hf'
      (by simp only [Lay.backward, hm, he, hsl]; exact hl) i2
    refine ⟨this.1, ?_⟩
    intro _ _ ν ν' e₂ c₂ d₂ h0 b b' hb
    exact this.2 h0 (imageBack_inst _ _ _ _ hb)
  | batchNorm h c' d' hc g b μ sd g' b' μ' sd' _ _ hw hb ih =>
    obtain ⟨i1, i2⟩ := ih hn (hx.imp_right fun hx => ⟨hx.1.1, hx.2.1⟩)
    obtain ⟨f, f', hf, hf', hff⟩ := C.child_image C' hm he hsl hu hi hst h (hx.imp_right fun hx => ⟨hx.1.2.2, hx.2.2.2⟩) i1
    have := C.node_layer C' (h.ne_zero hi.ne) hc (l := .batchNorm g b μ sd) (l' := .batchNorm g' b' μ' sd') hf hf'
      (imageBack_exact _ _ (eval_of_holds rfl rfl fun y => holds_batchNorm g b μ sd y)
        (eval_of_holds rfl rfl fun y => holds_batchNorm g' b' μ' sd' y)
        fun y k => image_normEval (hw k) (hb k) (imagePoint_apply _ _ _ y k)) i2
    refine ⟨this.1, ?_⟩
    intro _ _ ν ν' e₂ c₂ d₂ h0 b b' hb
    exact this.2 h0 (imageBack_inst _ _ _ _ hb)
  | @reshape _ _ _ _ _ _ _ _ _ _ _ _ e c d h e' r r' hr ih =>
    obtain ⟨i1, i2⟩ := ih hn (hx.imp_right fun hx => ⟨hx.1.1, hx.2.1⟩)
    obtain ⟨f, f', hf, hf', hff⟩ := C.child_image C' hm he hsl hu hi hst h (hx.imp_right fun hx => ⟨hx.1.2.2, hx.2.2.2⟩) i1
    have := C.node_layer C' (h.ne_zero hi.ne) (fun k => h.ne_zero hi.ne (r k)) (l := .reshape r) (l' := .reshape r') hf hf'
      (imageBack_exact _ _ (eval_of_holds rfl rfl fun y => holds_reindex r y) (eval_of_holds rfl rfl fun y => holds_reindex r' y)
        fun y k => by rw [hr]; exact imagePoint_apply _ _ _ y _) i2 (e' := e') (d' := fun k => d (r k))
    refine ⟨this.1, ?_⟩
    intro _ _ ν ν' e₂ c₂ d₂ h0 b b' hb
    exact this.2 h0 (imageBack_inst _ _ _ _ hb)
  | skip h ih =>
    obtain ⟨i1, i2⟩ := ih hn (hx.imp_right fun hx => ⟨hx.1.1, hx.2.1⟩)
    obtain ⟨f, f', hf, hf', hff⟩ := C.child_image C' hm he hsl hu hi hst h (hx.imp_right fun hx => ⟨hx.1.2.2, hx.2.2.2⟩) i1
    have := C.node_layer C' (h.ne_zero hi.ne) (h.ne_zero hi.ne) (l := .skip) (l' := .skip) hf hf' imageBack_identity i2
    refine ⟨this.1, ?_⟩
    intro _ _ ν ν' e₂ c₂ d₂ h0 b b' hb
    exact this.2 h0 (imageBack_inst _ _ _ _ hb)
  | _ => exact absurd hn (by simp [Net.Chain])

end Nodes

end Decomon
