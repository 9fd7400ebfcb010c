import Verif.SpecLogits
import Verif.Props.Symm
import Verif.Props.ScoreRange
import Verif.Props.CloneSliver

/-!
C163: the temperature and the biases of the last layer of a classifier.
-/

namespace Decomon

section Tensors
variable {ι κ X α : Type} [Fintype ι] [DecidableEq ι] [Field α] [LinearOrder α] [IsStrictOrderedRing α]

/-- The bounds `f'` are the bounds `f` after `y ↦ c y + d`. -/
structure Rescaled (m : Mode) (c : α) (d : κ → α) (f f' : Full X ι κ α) : Prop where
  const : m ≠ .affine → ∀ k, f'.uc k = c * f.uc k + d k ∧ f'.lc k = c * f.lc k + d k
  aff : m ≠ .ibp → ∀ k, (∀ i, f'.wu i k = c * f.wu i k ∧ f'.wl i k = c * f.wl i k) ∧ f'.bu k = c * f.bu k + d k ∧ f'.bl k = c * f.bl k + d k

omit [DecidableEq ι] in
theorem affEval_zero (w : ι → α) (b : α) : affEval w b (fun _ => 0) = b := by simp [affEval]

theorem affEval_single (w : ι → α) (b : α) (i : ι) : affEval w b (Pi.single i 1) = w i + b := by
  simp [affEval, Pi.single_apply]

theorem rescaled_of_image {m : Mode} {c : α} (hc : 0 < c) {d : κ → α} {f f' : Full ((ι → α) × (ι → α)) ι κ α}
    (h : ImageOutputs m (Equiv.refl ι) (fun _ => 1) (fun _ => 0) (Equiv.refl κ) (fun _ => c) d f f') : Rescaled m c d f f' := by
  refine ⟨fun hm k => ?_, fun hm k => ?_⟩
  · have := h.1 hm k
    simpa only [hc, if_true, Equiv.refl_apply] using this
  · have key : ∀ z, affEval (fun i => f'.wu i k) (f'.bu k) z = c * affEval (fun i => f.wu i k) (f.bu k) z + d k ∧
        affEval (fun i => f'.wl i k) (f'.bl k) z = c * affEval (fun i => f.wl i k) (f.bl k) z + d k := by
      intro z
      have := (h.2 hm).1 z k
      have e : imagePoint (Equiv.refl ι) (fun _ => (1 : α)) (fun _ => 0) z = z := by funext i; simp [imagePoint]
      rw [e] at this
      simpa only [hc, if_true, Equiv.refl_apply] using this
    have h0 := key fun _ => 0
    simp only [affEval_zero] at h0
    refine ⟨fun i => ?_, h0⟩
    have h1 := key (Pi.single i 1)
    simp only [affEval_single] at h1
    exact ⟨by linear_combination h1.1 - h0.1, by linear_combination h1.2 - h0.2⟩

omit [DecidableEq ι] in
theorem getUpperBox_rescale (xmin xmax : ι → α) {c : α} (hc : 0 < c) (w : ι → α) (b d : α) :
    getUpperBox xmin xmax (fun i => c * w i) (c * b + d) = c * getUpperBox xmin xmax w b + d := by
  simp only [getUpperBox]
  have e1 : ∀ x : α, max (c * x) 0 = c * max x 0 := fun x => by rw [mul_max_of_nonneg _ _ hc.le, mul_zero]
  have e2 : ∀ x : α, min (c * x) 0 = c * min x 0 := fun x => by rw [mul_min_of_nonneg _ _ hc.le, mul_zero]
  simp only [e1, e2, mul_add, Finset.mul_sum, mul_assoc]
  ring

omit [DecidableEq ι] in
theorem getLowerBox_rescale (xmin xmax : ι → α) {c : α} (hc : 0 < c) (w : ι → α) (b d : α) :
    getLowerBox xmin xmax (fun i => c * w i) (c * b + d) = c * getLowerBox xmin xmax w b + d := by
  simp only [getLowerBox]
  have e1 : ∀ x : α, max (c * x) 0 = c * max x 0 := fun x => by rw [mul_max_of_nonneg _ _ hc.le, mul_zero]
  have e2 : ∀ x : α, min (c * x) 0 = c * min x 0 := fun x => by rw [mul_min_of_nonneg _ _ hc.le, mul_zero]
  simp only [e1, e2, mul_add, Finset.mul_sum, mul_assoc]
  ring

omit [DecidableEq ι] in
theorem Rescaled.range {m : Mode} {c : α} (hc : 0 < c) {d : κ → α} {f f' : Full X ι κ α} (h : Rescaled m c d f f') (b : BoxOf ι α) (k : κ) :
    rangeUpper m b f' k = c * rangeUpper m b f k + d k ∧ rangeLower m b f' k = c * rangeLower m b f k + d k := by
  have ha : m ≠ .ibp → getUpperBox b.1 b.2 (fun i => f'.wu i k) (f'.bu k) = c * getUpperBox b.1 b.2 (fun i => f.wu i k) (f.bu k) + d k ∧
      getLowerBox b.1 b.2 (fun i => f'.wl i k) (f'.bl k) = c * getLowerBox b.1 b.2 (fun i => f.wl i k) (f.bl k) + d k := by
    intro hm
    obtain ⟨hw, h1, h2⟩ := h.aff hm k
    rw [funext fun i => (hw i).1, funext fun i => (hw i).2, h1, h2]
    exact ⟨getUpperBox_rescale _ _ hc _ _ _, getLowerBox_rescale _ _ hc _ _ _⟩
  have hmono : Monotone fun y : α => c * y + d k := fun x y hxy => by
    have := mul_le_mul_of_nonneg_left hxy hc.le
    simpa using this
  cases m with
  | ibp => exact h.const nofun k
  | affine => exact ha nofun
  | hybrid =>
    simp only [rangeUpper, rangeLower]
    rw [(ha nofun).1, (ha nofun).2, (h.const nofun k).1, (h.const nofun k).2]
    exact ⟨(hmono.map_min (a := f.uc k)).symm, (hmono.map_max (a := f.lc k)).symm⟩

omit [DecidableEq ι] in
theorem Rescaled.pair {m : Mode} {c : α} (hc : 0 < c) {d : κ → α} {f f' : Full X ι κ α} (h : Rescaled m c d f f') (b : BoxOf ι α) (t s : κ) :
    (m ≠ .affine → ibpPair f' t s = c * ibpPair f t s + (d t - d s)) ∧ (m ≠ .ibp → affinePair b f' t s = c * affinePair b f t s + (d t - d s)) := by
  refine ⟨fun hm => ?_, fun hm => ?_⟩
  · simp only [ibpPair]; rw [(h.const hm t).1, (h.const hm s).2]; ring
  · obtain ⟨hw, h1, -⟩ := h.aff hm t
    obtain ⟨hw', -, h2⟩ := h.aff hm s
    simp only [affinePair]
    rw [← getUpperBox_rescale _ _ hc, h1, h2]
    congr 1
    · funext i; rw [(hw i).1, (hw' i).2]; ring
    · ring

end Tensors

section Lists
variable {α τ σ : Type*}

theorem pySlice_map (f : τ → σ) (a b : ℕ) (l : List τ) : pySlice a b (l.map f) = (pySlice a b l).map f := by
  simp [pySlice, List.map_drop, List.map_take]

theorem regroup_map (f : τ → σ) (k : ℕ) (l : List τ) : regroup k (l.map f) = (regroup k l).map (List.map f) := by
  simp only [regroup, List.length_map, List.map_map, pySlice_map, Function.comp_def]

theorem regroup_ne_nil (k : ℕ) (l g : List τ) (hg : g ∈ regroup k l) : g ≠ [] := by
  obtain ⟨i, hi, rfl⟩ := List.mem_map.1 hg
  rw [List.mem_range] at hi
  have hk : 0 < k := Nat.pos_of_ne_zero fun h => by simp [h] at hi
  have h1 : k * (i + 1) ≤ l.length := (Nat.mul_le_mul_left k hi).trans (Nat.mul_div_le _ _)
  intro h
  have := congrArg List.length h
  simp only [pySlice, List.length_drop, List.length_take, List.length_nil] at this
  have : k * (i + 1) = k * i + k := by ring
  omega

variable [Zero α] [LinearOrder α]

theorem listMax_map {f : α → α} (hf : Monotone f) {l : List α} (hl : l ≠ []) : listMax (l.map f) = f (listMax l) := by
  cases l with
  | nil => exact absurd rfl hl
  | cons a l =>
    simp only [List.map_cons, listMax]
    clear hl
    induction l generalizing a with
    | nil => rfl
    | cons b l ih => simp only [List.map_cons, List.foldl_cons]; rw [← hf.map_max]; exact ih _

theorem listMin_map {f : α → α} (hf : Monotone f) {l : List α} (hl : l ≠ []) : listMin (l.map f) = f (listMin l) := by
  cases l with
  | nil => exact absurd rfl hl
  | cons a l =>
    simp only [List.map_cons, listMin]
    clear hl
    induction l generalizing a with
    | nil => rfl
    | cons b l ih => simp only [List.map_cons, List.foldl_cons]; rw [← hf.map_min]; exact ih _

end Lists

section User
variable {n : ℕ} {X α : Type} [Field α] [LinearOrder α] [IsStrictOrderedRing α]

theorem flatRows_map {D : ℕ} (f : α → α) (rows : List (Fin D → α)) : flatRows (rows.map fun r k => f (r k)) = (flatRows rows).map f := by
  unfold flatRows
  induction rows with
  | nil => rfl
  | cons r l ih =>
    simp only [List.map_cons, List.flatMap_cons, List.map_append, ih, List.map_ofFn]
    rfl

theorem getRangeBox_rescaled {D : ℕ} {net net' : BoxOf (Fin (n + 1)) α → Full X (Fin (n + 1)) (Fin D) α} {m : Mode} {c : α} (hc : 0 < c) (d : α)
    (h : ∀ b, Rescaled m c (fun _ => d) (net b) (net' b)) (batch nSub : ℕ) (bs : List (BoxOf (Fin (n + 1)) α)) :
    getRangeBox net' m batch nSub bs =
      (getRangeBox net m batch nSub bs).map fun p => (p.1.map fun y => c * y + d, p.2.map fun y => c * y + d) := by
  by_cases hb : badBoxes bs = true
  · unfold getRangeBox; rw [if_pos hb, if_pos hb]; rfl
  · have hg := (not_bad_iff bs).1 (by simpa using hb)
    rw [getRangeBox_eq net' m batch nSub bs hg, getRangeBox_eq net m batch nSub bs hg]
    have hmono : Monotone fun y : α => c * y + d := fun x y hxy => by
      have := mul_le_mul_of_nonneg_left hxy hc.le
      simpa using this
    have e1 : ((subBoxes nSub bs).1.map fun b => rangeUpper m b (net' b)) =
        ((subBoxes nSub bs).1.map fun b => rangeUpper m b (net b)).map fun r k => c * r k + d := by
      rw [List.map_map]
      exact List.map_congr_left fun b _ => funext fun k => ((h b).range hc b k).1
    have e2 : ((subBoxes nSub bs).1.map fun b => rangeLower m b (net' b)) =
        ((subBoxes nSub bs).1.map fun b => rangeLower m b (net b)).map fun r k => c * r k + d := by
      rw [List.map_map]
      exact List.map_congr_left fun b _ => funext fun k => ((h b).range hc b k).2
    simp only [e1, e2]
    rw [flatRows_map fun y => c * y + d, flatRows_map fun y => c * y + d]
    split
    · simp only [Except.map, regroup_map, List.map_map]
      congr 2
      · exact List.map_congr_left fun g hg => listMax_map hmono (regroup_ne_nil _ _ g hg)
      · exact List.map_congr_left fun g hg => listMin_map hmono (regroup_ne_nil _ _ g hg)
    · rfl

variable {κ : Type} [Fintype κ] [Nonempty κ]

omit [Fintype κ] [Nonempty κ] in
theorem greatest_rescaled {P P' : κ → κ → α} {src tgt : κ → α} {c δ : α} (hc : 0 < c)
    (h : ∀ t s, tgt t = 1 → src s = 1 → P' t s = c * P t s + δ) {a a' : α} (ha : IsGreatest (pairValues (P, src, tgt)) a)
    (ha' : IsGreatest (pairValues (P', src, tgt)) a') : a' = c * a + δ := by
  obtain ⟨⟨t, s, ht, hs, e⟩, hmax⟩ := ha
  obtain ⟨⟨t', s', ht', hs', e'⟩, hmax'⟩ := ha'
  dsimp only at ht hs e ht' hs' e'
  apply le_antisymm
  · rw [e', h t' s' ht' hs']
    have := mul_le_mul_of_nonneg_left (hmax ⟨t', s', ht', hs', rfl⟩) hc.le
    simpa using this
  · have := hmax' ⟨t, s, ht, hs, rfl⟩
    dsimp only at this
    rw [h t s ht hs] at this
    rw [e]; exact this

omit [Fintype κ] [Nonempty κ] in
theorem pairScore_rescaled {ι : Type} [Fintype ι] {net net' : BoxOf ι α → Full X ι κ α} {m : Mode} {c δ : α} {d : κ → α} (hc : 0 < c)
    {r : AdvSample ι κ α} (h : Rescaled m c d (net r.box) (net' r.box)) (hd : ∀ t s, r.tgt t = 1 → r.src s = 1 → d t - d s = δ) {sc sc' : α}
    (hs : PairScore net m r sc) (hs' : PairScore net' m r sc') : sc' = c * sc + δ := by
  obtain ⟨a, b, ha, hb, rfl⟩ := hs
  obtain ⟨a', b', ha', hb', rfl⟩ := hs'
  have e1 : m ≠ .affine → a' = c * a + δ := fun hm =>
    greatest_rescaled hc (fun t s ht hs => by rw [(h.pair hc r.box t s).1 hm, hd t s ht hs]) ha ha'
  have e2 : m ≠ .ibp → b' = c * b + δ := fun hm =>
    greatest_rescaled hc (fun t s ht hs => by rw [(h.pair hc r.box t s).2 hm, hd t s ht hs]) hb hb'
  have hmono : Monotone fun y : α => c * y + δ := fun x y hxy => by
    have := mul_le_mul_of_nonneg_left hxy hc.le
    simpa using this
  cases m with
  | ibp => exact e1 nofun
  | affine => exact e2 nofun
  | hybrid => dsimp only; rw [e1 nofun, e2 nofun]; exact (hmono.map_min (a := a)).symm

theorem getAdvBox_rescaled {net net' : BoxOf (Fin (n + 1)) α → Full X (Fin (n + 1)) κ α} {m : Mode} {c δ : α} {d : κ → α} (hc : 0 < c)
    (h : ∀ b, Rescaled m c d (net b) (net' b)) (batch nSub : ℕ) (rows : List (AdvSample (Fin (n + 1)) κ α))
    (hb : ∀ r ∈ rows, ∀ i, r.box.1 i ≤ r.box.2 i) (hl : ∀ r ∈ rows, Labels r.src r.tgt)
    (hd : ∀ r ∈ rows, ∀ t s, r.tgt t = 1 → r.src s = 1 → d t - d s = δ) :
    ∃ scs, getAdvBox net m batch nSub rows = .ok scs ∧ getAdvBox net' m batch nSub rows = .ok (scs.map fun y => c * y + δ) := by
  obtain ⟨scs, e, hs⟩ := getAdvBox_pairScore net m batch nSub rows hb hl
  obtain ⟨scs', e', hs'⟩ := getAdvBox_pairScore net' m batch nSub rows hb hl
  refine ⟨scs, e, ?_⟩
  have hmono : Monotone fun y : α => c * y + δ := fun x y hxy => by
    have := mul_le_mul_of_nonneg_left hxy hc.le
    simpa using this
  rw [e']
  congr 1
  clear e e' hl hb
  induction hs generalizing scs' with
  | nil => cases hs'; rfl
  | @cons r sc rows scs h1 _ ih =>
    cases hs' with
    | @cons _ sc' _ scs'' h2 t =>
      rw [List.map_cons, ← ih (fun r hr => hd r (List.mem_cons_of_mem _ hr)) _ t]
      congr 1
      obtain ⟨g, hg, rfl⟩ := h1
      obtain ⟨g', hg', rfl⟩ := h2
      have eg : g' = g.map fun y => c * y + δ := by
        generalize refineBoxes true nSub r.box = bs at hg hg'
        induction hg generalizing g' with
        | nil => cases hg'; rfl
        | @cons bx _ _ _ a1 _ ih =>
          cases hg' with
          | cons a2 t =>
            rw [List.map_cons, ← ih _ t, pairScore_rescaled (r := ⟨bx, r.src, r.tgt⟩) hc (h bx) (fun t s => hd r List.mem_cons_self t s) a1 a2]
      rw [eg]
      exact listMax_map hmono fun hg0 => by
        rw [hg0] at hg
        cases hg' : refineBoxes true nSub r.box with
        | nil => exact refineBoxes_ne_nil nSub r.box hg'
        | cons => rw [hg'] at hg; cases hg

end User

section Networks
variable {ι κ μ α : Type} [Fintype ι] [DecidableEq ι] [Fintype κ] [DecidableEq κ] [Fintype μ] [DecidableEq μ] [Field α] [LinearOrder α]
  [IsStrictOrderedRing α]

theorem onTop_input {ι κ : Type} (q : Net α ι κ) : (Net.input : Net α ι ι).onTop q = q := by
  induction q with
  | input => rfl
  | layer q l ih => simp only [Net.onTop, ih]
  | merge op q0 q1 i0 i1 => simp only [Net.onTop, i0, i1]

theorem logits_reparam (n : Net α ι κ) (hn : n.WF) (K : κ → μ → α) (b : μ → α) (c : α) (hc : 0 < c) (d : μ → α) :
    (n.logits K b).Reparam True (Equiv.refl ι) (fun _ => 1) (fun _ => 0) (n.rescaledLogits K b c d) (Equiv.refl μ) (fun _ => c) d := by
  have h := onTop_reparam (s := Equiv.refl ι) (a := fun _ => (1 : α)) (t := fun _ => 0) .input n hn
  rw [onTop_input] at h
  exact .dense h _ _ _ (fun _ => hc.ne') K b _ _ (fun i j => by simp) fun j => by simp

/-- C163: the function of the network is rescaled. -/
theorem C163_eval (n : Net α ι κ) (K : κ → μ → α) (b : μ → α) (c : α) (d : μ → α) (p : ι → α) (j : μ) :
    (n.rescaledLogits K b c d).eval p j = c * (n.logits K b).eval p j + d j := by
  simp only [Net.rescaledLogits, Net.logits, Net.eval, Lay.eval, mul_add, Finset.mul_sum]
  rw [← add_assoc]
  congr 2
  exact Finset.sum_congr rfl fun i _ => by ring

theorem image_refl_box (xmin xmax : ι → α) :
    ImageBounds (Equiv.refl ι) (fun _ => (1 : α)) (fun _ => 0) xmax xmin xmax xmin := fun k => by simp

/-- C163 (forward methods): so are the tensors, in all modes and after the conversion to any final mode. -/
theorem C163_forward (n : Net α ι κ) (hn : n.WF) (K : κ → μ → α) (b : μ → α) (c : α) (hc : 0 < c) (d : μ → α) (m mf : Mode)
    (hm : m = .ibp → mf = .ibp) (eps : α) (slope : Slope) (xmin xmax : ι → α) :
    Rescaled mf c d (convert2Mode boxDomain m mf ((n.logits K b).forward boxDomain m eps slope (inputTensorsBox m xmin xmax)))
      (convert2Mode boxDomain m mf ((n.rescaledLogits K b c d).forward boxDomain m eps slope (inputTensorsBox m xmin xmax))) :=
  rescaled_of_image hc (C119_forward_partial (fun _ => one_ne_zero) (logits_reparam n hn K b c hc d) (image_refl_box xmin xmax) m mf hm eps slope
    (.inl trivial)).2

/-- C163 (crown and crown-forward methods). -/
theorem C163_crown (n : Net α ι κ) (hn : n.WF) (hch : n.Chain) (K : κ → μ → α) (b : μ → α) (c : α) (hc : 0 < c) (d : μ → α) (m mf : Mode)
    (hm : m = .ibp → mf = .ibp) (eps : α) (slope : Slope) (fwd : Bool) (xmin xmax : ι → α) :
    ∃ f f', (boxCrown m eps slope fwd xmin xmax).model (n.logits K b) = .ok f ∧
      (boxCrown m eps slope fwd xmin xmax).model (n.rescaledLogits K b c d) = .ok f' ∧
      Rescaled mf c d (convert2Mode boxDomain m mf f) (convert2Mode boxDomain m mf f') := by
  obtain ⟨f, f', e, e', -, h⟩ := C119_crown_partial (fun _ => one_ne_zero) (logits_reparam n hn K b c hc d) hch (image_refl_box xmin xmax) m mf hm eps
    slope fwd (.inl trivial)
  exact ⟨f, f', e, e', rescaled_of_image hc h⟩

/-- One ReLU and two outputs, at temperature 1/3. -/
example (p : Fin 1 → ℚ) := C163_eval (.layer .input (.relu (fun _ => 0) fun _ => 0) : Net ℚ (Fin 1) (Fin 1)) ![![1, -2]] ![0, 1] 3 ![5, -1] p (1 : Fin 2)

example (m : Mode) := C163_forward (.layer .input (.relu (fun _ => 0) fun _ => 0) : Net ℚ (Fin 1) (Fin 1)) ⟨trivial, fun _ => by norm_num⟩ ![![1, -2]] ![0, 1] 3 (by norm_num)
  (![5, -1] : Fin 2 → ℚ) m m id (1 / 10000000) .vSlope (fun _ : Fin 1 => -1) fun _ => 1

example (m : Mode) (fwd : Bool) := C163_crown (.layer .input (.relu (fun _ => 0) fun _ => 0) : Net ℚ (Fin 1) (Fin 1)) ⟨trivial, fun _ => by norm_num⟩ trivial ![![1, -2]] ![0, 1] 3
  (by norm_num) (![5, -1] : Fin 2 → ℚ) m m id (1 / 10000000) .vSlope fwd (fun _ : Fin 1 => -1) fun _ => 1

end Networks

section Clone
variable {n : ℕ}

/-- What `clone` returns on a box is what its formula gives. -/
theorem cloneOnBox_net (G : KGraph n) (order : List ℕ) (o M : ℕ) (k : Method) (hG : G.Ready order o M)
    (hch : isBackward k = true → ∀ v ∈ order, (G.op v).InChain) (N : (v : ℕ) → Net ℝ (Idx [n]) (Idx (G.sh v))) (hN : G.IsNet order N)
    (fi fa : Option Bool) (hm : k.mode ≠ .ibp ∨ k.final fi fa = .ibp) (eps : ℝ) (slope : Slope) (fuel : ℕ) (hf : order.length ≤ fuel + 1)
    (nameOf : ℕ → String) (b : BoxOf (Fin n) ℝ) :
    ∃ r, (if isBackward k then
        (boxCrown k.mode eps slope (decide (k ≠ .crown)) (fun i => b.1 ((oneAxis n).symm i)) fun i => b.2 ((oneAxis n).symm i)).model (N o) = .ok r
      else r = (N o).forward boxDomain k.mode eps slope (inputTensorsBox k.mode (fun i => b.1 ((oneAxis n).symm i)) fun i => b.2 ((oneAxis n).symm i))) ∧
      G.cloneOnBox k.value fi fa eps slope M (fuel + 1) order nameOf o b =
        .ok ((convert2Mode boxDomain k.mode (k.final fi fa) r).carried (k.final fi fa)
          (fun i => b.1 ((oneAxis n).symm i), fun i => b.2 ((oneAxis n).symm i))).flat := by
  have hc : ∀ r : Full (BoxOf (Idx [n]) ℝ) (Idx [n]) (Idx (G.sh o)) ℝ,
      G.runPlan boxDomain Prod.mk ⟨decide (k ≠ .crown), isBackward k, k.mode, k.final fi fa⟩ eps slope
        (inputTensorsBox k.mode (fun i => b.1 ((oneAxis n).symm i)) fun i => b.2 ((oneAxis n).symm i)) M (fuel + 1) order nameOf o =
          .ok ((r.toList (k.final fi fa)).map Ten.toB) →
      G.cloneOnBox k.value fi fa eps slope M (fuel + 1) order nameOf o b =
        .ok (r.carried (k.final fi fa) (fun i => b.1 ((oneAxis n).symm i), fun i => b.2 ((oneAxis n).symm i))).flat := fun r e => by
    simp only [KGraph.cloneOnBox, clonePlan_value, Except.bind, e, mapM_toB]
    exact wrapperOutput_toList _ _ _
  cases hb : isBackward k with
  | false =>
    have e := C141_forward boxDomain k.mode (k.final fi fa) hm eps slope
      (inputTensorsBox k.mode (fun i => b.1 ((oneAxis n).symm i)) fun i => b.2 ((oneAxis n).symm i)) G M fuel order hG.sorted nameOf o hG.out hG.depth
      hG.used N hN
    exact ⟨_, rfl, hc _ (by simp only [hb, KGraph.runPlan, Bool.false_eq_true, if_false]; exact congrArg (Except.map _) e)⟩
  | true =>
    obtain ⟨out, e1, e2⟩ := C141_backward
      (boxCrown k.mode eps slope (decide (k ≠ .crown)) (fun i => b.1 ((oneAxis n).symm i)) fun i => b.2 ((oneAxis n).symm i))
      (k.final fi fa) hm G M fuel order hG.sorted hf nameOf o hG.out hG.depth hG.used (hch hb) N hN
    exact ⟨out, e1, hc _ (by simp only [hb, KGraph.runPlan, if_true]; exact e2)⟩

theorem Rescaled.flat {X : Type} {s : List ℕ} {m : Mode} {c : ℝ} {d : Idx s → ℝ} {f f' : Full X (Idx [n]) (Idx s) ℝ} (h : Rescaled m c d f f')
    (x0 : X) : Rescaled m c (fun j => d ((ravel s).symm j)) (f.carried m x0).flat (f'.carried m x0).flat := by
  refine ⟨fun hm k => ?_, fun hm k => ?_⟩
  · have hi : getIbp m = true := by cases m <;> first | rfl | exact absurd rfl hm
    simp only [Full.flat, Full.carried, hi, if_true]
    exact h.const hm _
  · have ha : getAffine m = true := by cases m <;> first | rfl | exact absurd rfl hm
    simp only [Full.flat, Full.carried, ha, if_true]
    exact ⟨fun i => (h.aff hm _).1 _, (h.aff hm _).2⟩

/-- C163 (`clone`): two graphs that differ by the scale and the biases of the last Dense layer, with every method of `clone`. -/
theorem C163_clone (G : KGraph n) (op' : (v : ℕ) → KOp n ((G.parents v).map G.sh) (G.sh v)) (order : List ℕ) (o M : ℕ) (k : Method)
    (hG : G.Ready order o M) (hG' : KGraph.Ready ⟨G.parents, G.sh, op'⟩ order o M)
    (hch : isBackward k = true → ∀ v ∈ order, (G.op v).InChain ∧ (op' v).InChain)
    (N N' : (v : ℕ) → Net ℝ (Idx [n]) (Idx (G.sh v))) (hN : G.IsNet order N) (hN' : KGraph.IsNet ⟨G.parents, G.sh, op'⟩ order N')
    {a : List ℕ} (q : Net ℝ (Idx [n]) (Idx a)) (hq : q.WF) (hqc : isBackward k = true → q.Chain) (K : Idx a → Idx (G.sh o) → ℝ) (b : Idx (G.sh o) → ℝ)
    (c : ℝ) (hc : 0 < c) (d : Idx (G.sh o) → ℝ) (ho : N o = q.logits K b) (ho' : N' o = q.rescaledLogits K b c d)
    (fi fa : Option Bool) (hm : k.mode ≠ .ibp ∨ k.final fi fa = .ibp) (eps : ℝ) (slope : Slope) (fuel : ℕ) (hf : order.length ≤ fuel + 1)
    (nameOf : ℕ → String) :
    ∃ net net' : BoxOf (Fin n) ℝ → Full (BoxOf (Idx [n]) ℝ) (Fin n) (Fin (G.sh o).prod) ℝ,
      (∀ x, G.cloneOnBox k.value fi fa eps slope M (fuel + 1) order nameOf o x = .ok (net x)) ∧
      (∀ x, KGraph.cloneOnBox ⟨G.parents, G.sh, op'⟩ k.value fi fa eps slope M (fuel + 1) order nameOf o x = .ok (net' x)) ∧
      ∀ x, Rescaled (k.final fi fa) c (fun j => d ((ravel (G.sh o)).symm j)) (net x) (net' x) := by
  have key : ∀ x, ∃ f f', G.cloneOnBox k.value fi fa eps slope M (fuel + 1) order nameOf o x = .ok f ∧
      KGraph.cloneOnBox ⟨G.parents, G.sh, op'⟩ k.value fi fa eps slope M (fuel + 1) order nameOf o x = .ok f' ∧
      Rescaled (k.final fi fa) c (fun j => d ((ravel (G.sh o)).symm j)) f f' := fun x => by
    obtain ⟨r, h1, e1⟩ := cloneOnBox_net G order o M k hG (fun h v hv => (hch h v hv).1) N hN fi fa hm eps slope fuel hf nameOf x
    obtain ⟨r', h2, e2⟩ := cloneOnBox_net ⟨G.parents, G.sh, op'⟩ order o M k hG' (fun h v hv => (hch h v hv).2) N' hN' fi fa hm eps slope fuel hf
      nameOf x
    refine ⟨_, _, e1, e2, Rescaled.flat ?_ _⟩
    have hm' : k.mode = .ibp → k.final fi fa = .ibp := fun h => hm.resolve_left (absurd h)
    cases hb : isBackward k with
    | false =>
      rw [hb] at h1 h2
      simp only [Bool.false_eq_true, if_false] at h1 h2
      rw [h1, h2, ho, ho']
      exact C163_forward q hq K b c hc d k.mode (k.final fi fa) hm' eps slope _ _
    | true =>
      rw [hb] at h1 h2
      simp only [if_true] at h1 h2
      rw [ho] at h1
      rw [ho'] at h2
      obtain ⟨f, f', g1, g2, h⟩ := C163_crown q hq (hqc hb) K b c hc d k.mode (k.final fi fa) hm' eps slope (decide (k ≠ .crown))
        (fun i => x.1 ((oneAxis n).symm i)) fun i => x.2 ((oneAxis n).symm i)
      rw [g1] at h1
      rw [g2] at h2
      cases h1
      cases h2
      exact h
  choose net net' h using key
  exact ⟨net, net', fun x => (h x).1, fun x => (h x).2.1, fun x => (h x).2.2⟩

/-- **C163.** Multiply the weights and biases of the last Dense layer by `c > 0` and add the same number to all its biases.  With every method of
`clone`, every batch size and number of sub-boxes, the arrays of `get_range_box` are multiplied by `c` and shifted by this number, and the scores of
`get_adv_box` are multiplied by `c`: their signs, the verdicts, are the same. -/
theorem C163_temperature (G : KGraph (n + 1)) (op' : (v : ℕ) → KOp (n + 1) ((G.parents v).map G.sh) (G.sh v)) (order : List ℕ) (o M : ℕ) (k : Method)
    (hG : G.Ready order o M) (hG' : KGraph.Ready ⟨G.parents, G.sh, op'⟩ order o M)
    (hch : isBackward k = true → ∀ v ∈ order, (G.op v).InChain ∧ (op' v).InChain)
    (N N' : (v : ℕ) → Net ℝ (Idx [n + 1]) (Idx (G.sh v))) (hN : G.IsNet order N) (hN' : KGraph.IsNet ⟨G.parents, G.sh, op'⟩ order N')
    {a : List ℕ} (q : Net ℝ (Idx [n + 1]) (Idx a)) (hq : q.WF) (hqc : isBackward k = true → q.Chain) (K : Idx a → Idx (G.sh o) → ℝ)
    (b : Idx (G.sh o) → ℝ) (c : ℝ) (hc : 0 < c) (d : ℝ) (ho : N o = q.logits K b) (ho' : N' o = q.rescaledLogits K b c fun _ => d)
    (fi fa : Option Bool) (hm : k.mode ≠ .ibp ∨ k.final fi fa = .ibp) (eps : ℝ) (slope : Slope) (fuel : ℕ) (hf : order.length ≤ fuel + 1)
    (nameOf : ℕ → String)
    [hne : Nonempty (Fin (G.sh o).prod)] (hs : (G.sh o).length = 1 ∨ k.final fi fa = .affine) :
    ∃ net net' : BoxOf (Fin (n + 1)) ℝ → Full (BoxOf (Idx [n + 1]) ℝ) (Fin (n + 1)) (Fin (G.sh o).prod) ℝ,
      (∀ x, G.cloneOnBox k.value fi fa eps slope M (fuel + 1) order nameOf o x = .ok (net x)) ∧
      (∀ x, KGraph.cloneOnBox ⟨G.parents, G.sh, op'⟩ k.value fi fa eps slope M (fuel + 1) order nameOf o x = .ok (net' x)) ∧
      ∀ batch nSub,
        (∀ bs, getRangeBox net' (k.final fi fa) batch nSub bs =
          (getRangeBox net (k.final fi fa) batch nSub bs).map fun r => (r.1.map fun y => c * y + d, r.2.map fun y => c * y + d)) ∧
        ∀ rows : List (AdvSample (Fin (n + 1)) (Fin (G.sh o).prod) ℝ),
          (∀ r ∈ rows, ∀ i, r.box.1 i ≤ r.box.2 i) → (∀ r ∈ rows, Labels r.src r.tgt) →
          ∃ scs, getAdvBoxOf (G.sh o) net (k.final fi fa) batch nSub rows = .ok scs ∧
            getAdvBoxOf (G.sh o) net' (k.final fi fa) batch nSub rows = .ok (scs.map fun y => c * y) := by
  obtain ⟨net, net', h1, h2, h⟩ := C163_clone G op' order o M k hG hG' hch N N' hN hN' q hq hqc K b c hc (fun _ => d) ho ho' fi fa hm eps slope fuel hf
    nameOf
  refine ⟨net, net', h1, h2, fun batch nSub => ⟨getRangeBox_rescaled hc d h batch nSub, fun rows hb hl => ?_⟩⟩
  obtain ⟨scs, e, e'⟩ := getAdvBox_rescaled (δ := 0) hc h batch nSub rows hb hl fun _ _ _ _ _ _ => sub_self d
  rw [C132_adv_shape _ net _ hs, C132_adv_shape _ net' _ hs]
  exact ⟨scs, e, by simpa only [add_zero] using e'⟩

/-- **C163 (biases).** When the biases change by different amounts, the score of one target label against one source label is multiplied by `c` and
changed by the difference of the two amounts. -/
theorem C163_biases (G : KGraph (n + 1)) (op' : (v : ℕ) → KOp (n + 1) ((G.parents v).map G.sh) (G.sh v)) (order : List ℕ) (o M : ℕ) (k : Method)
    (hG : G.Ready order o M) (hG' : KGraph.Ready ⟨G.parents, G.sh, op'⟩ order o M)
    (hch : isBackward k = true → ∀ v ∈ order, (G.op v).InChain ∧ (op' v).InChain)
    (N N' : (v : ℕ) → Net ℝ (Idx [n + 1]) (Idx (G.sh v))) (hN : G.IsNet order N) (hN' : KGraph.IsNet ⟨G.parents, G.sh, op'⟩ order N')
    {a : List ℕ} (q : Net ℝ (Idx [n + 1]) (Idx a)) (hq : q.WF) (hqc : isBackward k = true → q.Chain) (K : Idx a → Idx (G.sh o) → ℝ)
    (b : Idx (G.sh o) → ℝ) (c : ℝ) (hc : 0 < c) (d : Idx (G.sh o) → ℝ) (ho : N o = q.logits K b) (ho' : N' o = q.rescaledLogits K b c d)
    (fi fa : Option Bool) (hm : k.mode ≠ .ibp ∨ k.final fi fa = .ibp) (eps : ℝ) (slope : Slope) (fuel : ℕ) (hf : order.length ≤ fuel + 1)
    (nameOf : ℕ → String)
    [hne : Nonempty (Fin (G.sh o).prod)] (hs : (G.sh o).length = 1 ∨ k.final fi fa = .affine) :
    ∃ net net' : BoxOf (Fin (n + 1)) ℝ → Full (BoxOf (Idx [n + 1]) ℝ) (Fin (n + 1)) (Fin (G.sh o).prod) ℝ,
      (∀ x, G.cloneOnBox k.value fi fa eps slope M (fuel + 1) order nameOf o x = .ok (net x)) ∧
      (∀ x, KGraph.cloneOnBox ⟨G.parents, G.sh, op'⟩ k.value fi fa eps slope M (fuel + 1) order nameOf o x = .ok (net' x)) ∧
      ∀ batch nSub (t s : Fin (G.sh o).prod) (boxes : List (BoxOf (Fin (n + 1)) ℝ)), (∀ x ∈ boxes, ∀ i, x.1 i ≤ x.2 i) →
        ∃ scs, getAdvBoxOf (G.sh o) net (k.final fi fa) batch nSub (boxes.map fun x => ⟨x, Pi.single s 1, Pi.single t 1⟩) = .ok scs ∧
          getAdvBoxOf (G.sh o) net' (k.final fi fa) batch nSub (boxes.map fun x => ⟨x, Pi.single s 1, Pi.single t 1⟩) =
            .ok (scs.map fun y => c * y + (d ((ravel (G.sh o)).symm t) - d ((ravel (G.sh o)).symm s))) := by
  obtain ⟨net, net', h1, h2, h⟩ := C163_clone G op' order o M k hG hG' hch N N' hN hN' q hq hqc K b c hc d ho ho' fi fa hm eps slope fuel hf nameOf
  refine ⟨net, net', h1, h2, fun batch nSub t s boxes hb => ?_⟩
  rw [C132_adv_shape _ net _ hs, C132_adv_shape _ net' _ hs]
  have one : ∀ i j : Fin (G.sh o).prod, (Pi.single i 1 : Fin (G.sh o).prod → ℝ) j = 1 → j = i := fun i j hj => by
    by_contra hne
    rw [Pi.single_eq_of_ne hne] at hj
    exact zero_ne_one hj
  refine getAdvBox_rescaled hc h batch nSub _ (fun r hr => ?_) (fun r hr => ?_) fun r hr t' s' ht hs' => ?_
  all_goals obtain ⟨x, hx, rfl⟩ := List.mem_map.1 hr
  · exact hb x hx
  · refine ⟨fun j => ?_, fun j => ?_, ⟨t, Pi.single_eq_same _ _⟩, ⟨s, Pi.single_eq_same _ _⟩⟩
    all_goals
      dsimp only
      rw [Pi.single_apply]
      split <;> simp
  · rw [one _ _ ht, one _ _ hs']

/-- `sliverGraph` with the logits multiplied by 2 and `d` added to the biases. -/
noncomputable def hotOp (eps A : ℝ) (d : Idx [2] → ℝ) : (v : ℕ) → KOp 1 (((sliverGraph eps A).parents v).map (sliverGraph eps A).sh) ((sliverGraph eps A).sh v)
  | 0 => .input
  | 1 => .layer (.lay (.relu (fun _ => 1) fun _ => 1))
  | 2 => .layer (.lay (.dense (fun _ j => 2 * if ravel [2] j = labA then 8 * A / eps else 0)
      fun j => (2 * if ravel [2] j = labA then 0 else 3 * A / 2) + d j))
  | _ + 3 => .input

noncomputable def hotNets (eps A : ℝ) (d : Idx [2] → ℝ) : (v : ℕ) → Net ℝ (Idx [1]) (Idx ((sliverGraph eps A).sh v))
  | 0 => .input
  | 1 => .layer .input (.relu (fun _ => 1) fun _ => 1)
  | 2 => .layer (.layer .input (.relu (fun _ => 1) fun _ => 1)) (.dense (fun _ j => 2 * if ravel [2] j = labA then 8 * A / eps else 0)
      fun j => (2 * if ravel [2] j = labA then 0 else 3 * A / 2) + d j)
  | _ + 3 => .input

theorem hot_isNet (eps A : ℝ) (d : Idx [2] → ℝ) : KGraph.IsNet ⟨(sliverGraph eps A).parents, (sliverGraph eps A).sh, hotOp eps A d⟩ [0, 1, 2] (hotNets eps A d) := by
  intro v hv
  have : v = 0 ∨ v = 1 ∨ v = 2 := by simpa using hv
  rcases this with rfl | rfl | rfl <;> exact rfl

theorem hot_ready (eps A : ℝ) (d : Idx [2] → ℝ) : KGraph.Ready ⟨(sliverGraph eps A).parents, (sliverGraph eps A).sh, hotOp eps A d⟩ [0, 1, 2] 2 2 := by
  have h := (sliver_reluFor eps A .crown).toReady
  refine ⟨h.sorted, h.out, h.depth, h.used, fun v hv => ?_⟩
  have : v = 0 ∨ v = 1 ∨ v = 2 := by simpa using hv
  rcases this with rfl | rfl | rfl
  · exact trivial
  · intro _; norm_num
  · exact trivial

theorem hot_chain (eps A : ℝ) (d : Idx [2] → ℝ) : ∀ v ∈ [0, 1, 2], ((sliverGraph eps A).op v).InChain ∧ (hotOp eps A d v).InChain := by
  intro v hv
  have : v = 0 ∨ v = 1 ∨ v = 2 := by simpa using hv
  rcases this with rfl | rfl | rfl <;> exact ⟨trivial, trivial⟩

/-- With every method: twice the logits, plus 5. -/
example (k : Method) := C163_temperature (n := 0) (sliverGraph 1 1) (hotOp 1 1 fun _ => 5) [0, 1, 2] 2 2 k (sliver_reluFor 1 1 k).toReady (hot_ready 1 1 _)
  (fun _ => hot_chain 1 1 _) (sliverNets 1 1) (hotNets 1 1 fun _ => 5) (sliver_isNet 1 1) (hot_isNet 1 1 _)
  (.layer .input (.relu (fun _ => 1) fun _ => 1)) ⟨trivial, fun _ => by norm_num⟩ (fun _ => trivial) _ _ 2 two_pos 5 rfl rfl none none
  (by cases k <;> first | exact .inr rfl | exact .inl nofun) (1 / 10000000) .vSlope 2 le_rfl (fun v => toString v) (hne := ⟨labA⟩) (.inl rfl)

/-- Twice the logits, and 1 more for the first label. -/
example (k : Method) := C163_biases (n := 0) (sliverGraph 1 1) (hotOp 1 1 fun j => if ravel [2] j = labA then 1 else 0) [0, 1, 2] 2 2 k
  (sliver_reluFor 1 1 k).toReady (hot_ready 1 1 _) (fun _ => hot_chain 1 1 _) (sliverNets 1 1) (hotNets 1 1 _) (sliver_isNet 1 1) (hot_isNet 1 1 _)
  (.layer .input (.relu (fun _ => 1) fun _ => 1)) ⟨trivial, fun _ => by norm_num⟩ (fun _ => trivial) _ _ 2 two_pos _ rfl rfl none none
  (by cases k <;> first | exact .inr rfl | exact .inl nofun) (1 / 10000000) .vSlope 2 le_rfl (fun v => toString v) (hne := ⟨labA⟩) (.inl rfl)

end Clone

section Labels

/-- Constant bounds `[0, 1]` for two outputs, multiplied by `c`. -/
def unitBounds (c : ℚ) : Full Unit (Fin 1) (Fin 2) ℚ :=
  ⟨(), fun _ => c, fun _ _ => 0, fun _ => c, fun _ => 0, fun _ _ => 0, fun _ => 0, fun _ => 0, fun _ => 0⟩

/-- Without a source label the number returned is a penalty that contains the constant 0.1: it is not multiplied by `c`. -/
theorem C163_no_source_refuted :
    (∀ m, Rescaled m 2 (fun _ => 0) (unitBounds 1) (unitBounds 2)) ∧
    getAdvBox (n := 0) (fun _ => unitBounds 1) .ibp 0 1 [⟨(fun _ => 0, fun _ => 1), fun _ => 0, fun _ => 1⟩] = .ok [9 / 10] ∧
    getAdvBox (n := 0) (fun _ => unitBounds 2) .ibp 0 1 [⟨(fun _ => 0, fun _ => 1), fun _ => 0, fun _ => 1⟩] = .ok [19 / 10] := by
  refine ⟨fun m => ⟨fun _ k => ?_, fun _ k => ⟨fun i => ?_, ?_⟩⟩, ?_, ?_⟩
  · simp [unitBounds]
  · simp [unitBounds]
  · simp [unitBounds]
  · decide +kernel
  · decide +kernel

end Labels

end Decomon
