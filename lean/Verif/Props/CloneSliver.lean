import Verif.Props.CloneSlack
import Verif.Props.ScoreRange
import Verif.Lemmas.Kink

/-!
The part of C131, C139 and C140 that fails: a graph of three layers on which every method other than `forward-ibp` returns wrong bounds and a wrong
certificate.
-/

namespace Decomon

section
variable {ι κ : Type} [Fintype ι] [DecidableEq ι] [Unique ι] [Fintype κ] [DecidableEq κ]

/-- `Dense(ReLU(x))` with one input. -/
def sliverDense (W : ι → κ → ℝ) (c : κ → ℝ) : Net ℝ ι κ := .layer (.layer .input (.relu (fun _ => 1) fun _ => 1)) (.dense W c)

/-- The lines that every method but `forward-ibp` finds for this network over `[-eps/4, eps/4]`. -/
structure SliverLines (eps : ℝ) (W : ι → κ → ℝ) (c : κ → ℝ) (wu : ι → κ → ℝ) (bu : κ → ℝ) (wl : ι → κ → ℝ) (bl : κ → ℝ) : Prop where
  wu : ∀ i k, wu i k = W i k / 4
  bu : ∀ k, bu k = W default k * eps / 16 + c k
  wl : ∀ i k, W default k = 0 → wl i k = 0
  bl : ∀ k, W default k = 0 → bl k = c k

theorem sliver_hull_real (eps : ℝ) (he : 0 < eps) (s : Slope) :
    (linearHullRelu eps s 1 (eps / 4) (-(eps / 4))).wu = 1 / 4 ∧ (linearHullRelu eps s 1 (eps / 4) (-(eps / 4))).bu = eps / 16 := by
  have h1 : (0 : ℝ) < eps / 4 := by linarith
  have h2 : -(eps / 4) < 0 := by linarith
  have h3 : max eps (eps / 4 - -(eps / 4)) = eps := max_eq_left (by linarith)
  have e : eps / 4 / eps = 1 / 4 := by field_simp
  simp only [linearHullRelu, indexDead_of_pos h1, indexLinear_of_neg h2, relu_of_nonneg h1.le, relu_of_nonpos h2.le, h3, sub_zero, e]
  constructor <;> ring

theorem sliver_forward (m : Mode) (hm : getAffine m = true) (eps : ℝ) (he : 0 < eps) (s : Slope) (W : ι → κ → ℝ) (c : κ → ℝ)
    (hW : ∀ i k, 0 ≤ W i k) :
    let f := (sliverDense W c).forward boxDomain m eps s (inputTensorsBox m (fun _ => -(eps / 4)) fun _ => eps / 4)
    SliverLines eps W c f.wu f.bu f.wl f.bl := by
  obtain ⟨w, b⟩ := sliver_hull_real eps he s
  have hd : ∀ i : ι, i = default := fun i => Subsingleton.elim _ _
  cases m
  · simp [getAffine] at hm
  all_goals
    refine ⟨fun i k => ?_, fun k => ?_, fun i k h0 => ?_, fun k h0 => ?_⟩
    all_goals
      try rw [hd i]
      have hk := hW default k
      simp [sliverDense, Net.forward, Lay.forward, denseT, reluT, Full.tighten, inputTensorsBox, boxDomain, getUpperBox, getLowerBox,
        getAffine, getIbp, w, b, max_eq_right hk, min_eq_left hk, *]
    all_goals try ring

theorem sliver_merge {X : Type} (D : PertDomain X ι ℝ) (m : Mode) (eps : ℝ) (he : 0 < eps) (s : Slope) (f : Full X ι ι ℝ)
    (hf : ∀ i, (f.tighten D m true true).uc i = eps / 4 ∧ (f.tighten D m true true).lc i = -(eps / 4)) (W : ι → κ → ℝ) (c : κ → ℝ)
    (hW : ∀ i k, 0 ≤ W i k) :
    let B := mergeWithPrevious (backwardRelu D m eps s (fun _ => 1) f) (backwardDense W c)
    SliverLines eps W c B.wu B.bu B.wl B.bl := by
  obtain ⟨w, b⟩ := sliver_hull_real eps he s
  have hd : ∀ i : ι, i = default := fun i => Subsingleton.elim _ _
  refine ⟨fun i k => ?_, fun k => ?_, fun i k h0 => ?_, fun k h0 => ?_⟩
  all_goals
    try rw [hd i]
    have hk := hW default k
    simp only [mergeWithPrevious, backwardRelu, backwardDense, Back.ofDiag, diagLike, hf, w, b, Fintype.sum_unique, if_true, max_eq_left hk,
      min_eq_right hk]
    try simp only [h0]
    ring_nf
  all_goals simp

theorem sliver_crown (m : Mode) (eps : ℝ) (he : 0 < eps) (s : Slope) (uf : Bool) (W : ι → κ → ℝ) (c : κ → ℝ) (hW : ∀ i k, 0 ≤ W i k) :
    ∃ B, ((boxCrown m eps s uf (fun _ => -(eps / 4)) fun _ => eps / 4).node (sliverDense W c)).first = .ok B ∧
      SliverLines eps W c B.wu B.bu B.wl B.bl := by
  have key : ∀ f : Full (BoxOf ι ℝ) ι ι ℝ,
      (boxCrown m eps s uf (fun _ => -(eps / 4)) fun _ => eps / 4).childInput .input
        ((boxCrown m eps s uf (fun _ => -(eps / 4)) fun _ => eps / 4).node .input) = .ok f →
      (∀ i, (f.tighten boxDomain m true true).uc i = eps / 4 ∧ (f.tighten boxDomain m true true).lc i = -(eps / 4)) := by
    intro f hf i
    rw [show i = default from Subsingleton.elim _ _]
    cases uf <;> cases m
    all_goals
      obtain rfl := Except.ok.inj hf
      simp [boxCrown, convert2BackwardMode, fuse, mergeWithPrevious, Back.identity, diagLike, Net.forward, Full.tighten, inputTensorsBox,
        boxDomain, getUpperBox, getLowerBox, getAffine, getIbp]
  obtain ⟨f, hf⟩ : ∃ f, (boxCrown m eps s uf (fun _ : ι => -(eps / 4)) fun _ => eps / 4).childInput .input
      ((boxCrown m eps s uf (fun _ : ι => -(eps / 4)) fun _ => eps / 4).node .input) = .ok f := by
    cases uf <;> exact ⟨_, rfl⟩
  have hl := sliver_merge boxDomain m eps he s f (key f hf) W c hW
  refine ⟨_, ?_, hl⟩
  obtain ⟨g, hg⟩ : ∃ g, (boxCrown m eps s uf (fun _ : ι => -(eps / 4)) fun _ => eps / 4).childInput (.layer .input (.relu (fun _ => 1) fun _ => 1))
      ((boxCrown m eps s uf (fun _ : ι => -(eps / 4)) fun _ => eps / 4).node (.layer .input (.relu (fun _ => 1) fun _ => 1))) = .ok g := by
    cases uf <;> exact ⟨_, rfl⟩
  have e : ∀ {ν : Type} (b : Back ι ν ℝ), ((boxCrown m eps s uf (fun _ : ι => -(eps / 4)) fun _ => eps / 4).node .input).next ν b = .ok b := fun b => by
    simp only [CrownCfg.node, merge_identity_left]
    exact congrArg Except.ok (fuse_box m _ _ b)
  have e1 : ∀ b : Back ι κ ℝ, ((boxCrown m eps s uf (fun _ : ι => -(eps / 4)) fun _ => eps / 4).node
      (.layer .input (.relu (fun _ => 1) fun _ => 1))).next κ b =
        .ok (mergeWithPrevious (backwardRelu boxDomain m eps s (fun _ => 1) f) b) := fun b => by
    have : ((boxCrown m eps s uf (fun _ : ι => -(eps / 4)) fun _ => eps / 4).node (.layer .input (.relu (fun _ => 1) fun _ => 1))).next κ b =
      Except.bind (((boxCrown m eps s uf (fun _ : ι => -(eps / 4)) fun _ => eps / 4).childInput .input
        ((boxCrown m eps s uf (fun _ : ι => -(eps / 4)) fun _ => eps / 4).node .input)).map
          (Lay.backward boxDomain m eps s (.relu (fun _ => 1) fun _ => 1)))
        (fun bn => ((boxCrown m eps s uf (fun _ : ι => -(eps / 4)) fun _ => eps / 4).node .input).next κ (mergeWithPrevious bn b)) := rfl
    rw [this, hf]
    exact e _
  have : ((boxCrown m eps s uf (fun _ : ι => -(eps / 4)) fun _ => eps / 4).node (sliverDense W c)).first =
      Except.bind (((boxCrown m eps s uf (fun _ : ι => -(eps / 4)) fun _ => eps / 4).childInput (.layer .input (.relu (fun _ => 1) fun _ => 1))
        ((boxCrown m eps s uf (fun _ : ι => -(eps / 4)) fun _ => eps / 4).node (.layer .input (.relu (fun _ => 1) fun _ => 1)))).map
          (Lay.backward boxDomain m eps s (.dense W c)))
        (((boxCrown m eps s uf (fun _ : ι => -(eps / 4)) fun _ => eps / 4).node (.layer .input (.relu (fun _ => 1) fun _ => 1))).next κ) := rfl
  rw [this, hg]
  exact e1 _

end

instance : Unique (Idx [1]) := (oneAxis 1).symm.unique

/-- The two labels of the cases. -/
def labA : Fin [2].prod := ⟨0, by decide⟩

def labB : Fin [2].prod := ⟨1, by decide⟩

theorem labB_ne : labB ≠ labA := by decide

/-- One input, a ReLU, and a `Dense` layer with two outputs: `8 A / eps * relu(x)` and the constant `3 A / 2`. -/
noncomputable def sliverGraph (eps A : ℝ) : KGraph 1 where
  parents := fun v => match v with | 1 => [0] | 2 => [1] | _ => []
  sh := fun v => match v with | 2 => [2] | _ => [1]
  op := fun v => match v with
    | 0 => .input
    | 1 => .layer (.lay (.relu (fun _ => 1) fun _ => 1))
    | 2 => .layer (.lay (.dense (fun _ j => if ravel [2] j = labA then 8 * A / eps else 0)
        fun j => if ravel [2] j = labA then 0 else 3 * A / 2))
    | _ + 3 => .input

/-- Its expressions. -/
noncomputable def sliverNets (eps A : ℝ) : (v : ℕ) → Net ℝ (Idx [1]) (Idx ((sliverGraph eps A).sh v))
  | 0 => .input
  | 1 => .layer .input (.relu (fun _ => 1) fun _ => 1)
  | 2 => sliverDense (fun _ j => if ravel [2] j = labA then 8 * A / eps else 0)
        fun j => if ravel [2] j = labA then 0 else 3 * A / 2
  | _ + 3 => .input

theorem sliver_isNet (eps A : ℝ) : (sliverGraph eps A).IsNet [0, 1, 2] (sliverNets eps A) := by
  intro v hv
  have : v = 0 ∨ v = 1 ∨ v = 2 := by simpa using hv
  rcases this with rfl | rfl | rfl <;> exact rfl

theorem sliver_reluFor (eps A : ℝ) (k : Method) : (sliverGraph eps A).ReluFor k [0, 1, 2] 2 2 := by
  obtain ⟨h1, h2, h3⟩ := chain3_ok (sliverGraph eps A).parents rfl rfl (by simp [sliverGraph]) fun v p hp => by
    match v, hp with
    | 0, hp => simp [sliverGraph] at hp
    | 1, hp => simp [sliverGraph] at hp; omega
    | 2, hp => simp [sliverGraph] at hp; omega
    | _ + 3, hp => simp [sliverGraph] at hp
  refine ⟨⟨h1, by simp, h2, h3, fun v hv => ?_⟩, fun v hv => ?_, fun _ v hv => ?_⟩ <;>
    have : v = 0 ∨ v = 1 ∨ v = 2 := by simpa using hv
  · rcases this with rfl | rfl | rfl
    · exact trivial
    · intro _; norm_num
    · exact trivial
  · rcases this with rfl | rfl | rfl <;> exact ⟨trivial, trivial⟩
  · rcases this with rfl | rfl | rfl <;> exact trivial

/-- The box `[-eps/4, eps/4]`. -/
noncomputable def sliverBox (eps : ℝ) : BoxOf (Fin 1) ℝ := (fun _ => -(eps / 4), fun _ => eps / 4)

/-- The weights and the biases of the last layer. -/
noncomputable def sliverW (eps A : ℝ) (j : Fin [2].prod) : ℝ := if j = labA then 8 * A / eps else 0

noncomputable def sliverC (A : ℝ) (j : Fin [2].prod) : ℝ := if j = labA then 0 else 3 * A / 2

/-- What the caller reads of such tensors. -/
structure SliverRead (eps A : ℝ) (m : Mode) {X : Type} (f : Full X (Fin 1) (Fin [2].prod) ℝ) : Prop where
  uc : m = .ibp → ∀ k : Fin [2].prod, f.uc k = sliverW eps A k * eps / 8 + sliverC A k
  lc : m = .ibp → f.lc labB = 3 * A / 2
  wu : m ≠ .ibp → ∀ i (k : Fin [2].prod), f.wu i k = sliverW eps A k / 4
  bu : m ≠ .ibp → ∀ k : Fin [2].prod, f.bu k = sliverW eps A k * eps / 16 + sliverC A k
  wl : m ≠ .ibp → ∀ i, f.wl i labB = 0
  bl : m ≠ .ibp → f.bl labB = 3 * A / 2

/-- The last layer of the graph, on indices. -/
noncomputable abbrev sliverWi (eps A : ℝ) : Idx [1] → Idx [2] → ℝ := fun _ j => if ravel [2] j = labA then 8 * A / eps else 0

noncomputable abbrev sliverCi (A : ℝ) : Idx [2] → ℝ := fun j => if ravel [2] j = labA then 0 else 3 * A / 2

theorem sliverRead_of (eps A : ℝ) {X : Type} (D : PertDomain X (Idx [1]) ℝ) (m : Mode) (x0 : X) (g : Full X (Idx [1]) (Idx [2]) ℝ)
    (h1 : m = .ibp → ∀ j : Fin [2].prod, g.uc ((ravel [2]).symm j) = sliverW eps A j * eps / 8 + sliverC A j)
    (h2 : m = .ibp → g.lc ((ravel [2]).symm labB) = 3 * A / 2)
    (h3 : m ≠ .ibp → SliverLines eps (sliverWi eps A) (sliverCi A) g.wu g.bu g.wl g.bl) :
    SliverRead eps A m ((convert2Mode D m m g).carried m x0).flat := by
  have ew : ∀ (i : Idx [1]) (j : Fin [2].prod), sliverWi eps A i ((ravel [2]).symm j) = sliverW eps A j := fun i j => by
    simp only [sliverWi, sliverW, Equiv.apply_symm_apply]
  have ec : ∀ j : Fin [2].prod, sliverCi A ((ravel [2]).symm j) = sliverC A j := fun j => by
    simp only [sliverCi, sliverC, Equiv.apply_symm_apply]
  have e0 : ∀ i : Idx [1], sliverWi eps A i ((ravel [2]).symm labB) = 0 := fun i => by
    rw [ew]; exact if_neg labB_ne
  have e1 : sliverCi A ((ravel [2]).symm labB) = 3 * A / 2 := by rw [ec]; exact if_neg labB_ne
  cases m with
  | ibp => exact ⟨fun _ j => h1 rfl j, fun _ => h2 rfl, fun h => absurd rfl h, fun h => absurd rfl h, fun h => absurd rfl h, fun h => absurd rfl h⟩
  | affine =>
    obtain ⟨a, b, c, d⟩ := h3 (by simp)
    refine ⟨nofun, nofun, fun _ i j => ?_, fun _ j => ?_, fun _ i => c _ _ (e0 _), fun _ => (d _ (e0 _)).trans e1⟩
    · exact (a (oneAxis 1 i) _).trans (by rw [ew])
    · exact (b _).trans (by rw [ew, ec])
  | hybrid =>
    obtain ⟨a, b, c, d⟩ := h3 (by simp)
    refine ⟨nofun, nofun, fun _ i j => ?_, fun _ j => ?_, fun _ i => c _ _ (e0 _), fun _ => (d _ (e0 _)).trans e1⟩
    · exact (a (oneAxis 1 i) _).trans (by rw [ew])
    · exact (b _).trans (by rw [ew, ec])

theorem sliverWi_nonneg {eps A : ℝ} (he : 0 < eps) (hA : 0 < A) (i : Idx [1]) (j : Idx [2]) : 0 ≤ sliverWi eps A i j := by
  unfold sliverWi; split <;> positivity

/-- The constants that crown computes from its lines. -/
theorem sliver_constants (eps A : ℝ) (he : 0 < eps) (hA : 0 < A) (B : Back (Idx [1]) (Idx [2]) ℝ)
    (h : SliverLines eps (sliverWi eps A) (sliverCi A) B.wu B.bu B.wl B.bl) (j : Fin [2].prod) :
    getUpperBox (fun _ => -(eps / 4)) (fun _ => eps / 4) (fun i => B.wu i ((ravel [2]).symm j)) (B.bu ((ravel [2]).symm j)) =
        sliverW eps A j * eps / 8 + sliverC A j ∧
      (j = labB →
        getLowerBox (fun _ => -(eps / 4)) (fun _ => eps / 4) (fun i => B.wl i ((ravel [2]).symm j)) (B.bl ((ravel [2]).symm j)) = 3 * A / 2) := by
  have hw := sliverWi_nonneg he hA default ((ravel [2]).symm j)
  have ew : sliverWi eps A default ((ravel [2]).symm j) = sliverW eps A j := by
    simp only [sliverWi, sliverW, Equiv.apply_symm_apply]
  have ec : sliverCi A ((ravel [2]).symm j) = sliverC A j := by
    simp only [sliverCi, sliverC, Equiv.apply_symm_apply]
  rw [ew] at hw
  constructor
  · simp only [getUpperBox, Fintype.sum_unique, h.wu, h.bu, ew, ec, max_eq_left (div_nonneg hw (by norm_num : (0:ℝ) ≤ 4)),
      min_eq_right (div_nonneg hw (by norm_num : (0:ℝ) ≤ 4))]
    ring
  · rintro rfl
    have e0 : sliverWi eps A default ((ravel [2]).symm labB) = 0 := by rw [ew]; exact if_neg labB_ne
    simp only [getLowerBox, Fintype.sum_unique, h.wl _ _ e0, h.bl _ e0, ec]
    simp [sliverC]
    exact if_neg labB_ne

theorem sliver_read (eps A : ℝ) (he : 0 < eps) (hA : 0 < A) (k : Method) (hk : k ≠ .forwardIbp) (slope : Slope) (fuel : ℕ) (hf : 3 ≤ fuel + 1)
    (nameOf : ℕ → String) :
    ∃ f, (sliverGraph eps A).cloneOnBox k.value none none eps slope 2 (fuel + 1) [0, 1, 2] nameOf 2 (sliverBox eps) = .ok f ∧
      SliverRead eps A k.mode f := by
  have hG := sliver_reluFor eps A k
  have hfin : k.final none none = k.mode := by cases k <;> rfl
  have hm : k.mode ≠ .ibp ∨ k.final none none = .ibp := by rw [hfin]; exact Decidable.not_or_of_imp id
  have hc : ∀ r : Full (BoxOf (Idx [1]) ℝ) (Idx [1]) (Idx [2]) ℝ,
      (sliverGraph eps A).runPlan boxDomain Prod.mk ⟨decide (k ≠ .crown), isBackward k, k.mode, k.final none none⟩ eps slope
        (inputTensorsBox k.mode (fun _ => -(eps / 4)) fun _ => eps / 4) 2 (fuel + 1) [0, 1, 2] nameOf 2 =
          .ok ((r.toList (k.final none none)).map Ten.toB) →
      (sliverGraph eps A).cloneOnBox k.value none none eps slope 2 (fuel + 1) [0, 1, 2] nameOf 2 (sliverBox eps) =
        .ok (r.carried (k.final none none) (fun _ => -(eps / 4), fun _ => eps / 4)).flat := fun r e => by
    simp only [KGraph.cloneOnBox, clonePlan_value, Except.bind, sliverBox, e, mapM_toB]
    exact wrapperOutput_toList _ _ _
  cases hb : isBackward k with
  | false =>
    have e := C141_forward boxDomain k.mode (k.final none none) hm eps slope (inputTensorsBox k.mode (fun _ => -(eps / 4)) fun _ => eps / 4)
      (sliverGraph eps A) 2 fuel [0, 1, 2] hG.sorted nameOf 2 hG.out hG.depth hG.used (sliverNets eps A) (sliver_isNet eps A)
    have ha : getAffine k.mode = true := by cases k <;> first | exact absurd rfl hk | exact absurd hb (by decide) | rfl
    have hi : k.mode ≠ .ibp := fun h => by rw [h] at ha; cases ha
    refine ⟨_, hc _ (by simp only [hb, KGraph.runPlan, Bool.false_eq_true, if_false]; exact congrArg (Except.map _) e), ?_⟩
    rw [hfin]
    exact sliverRead_of eps A boxDomain k.mode _ _ (fun h => absurd h hi) (fun h => absurd h hi)
      fun _ => sliver_forward k.mode ha eps he slope _ _ (sliverWi_nonneg he hA)
  | true =>
    obtain ⟨out, e1, e2⟩ := C141_backward (boxCrown k.mode eps slope (decide (k ≠ .crown)) (fun _ => -(eps / 4)) fun _ => eps / 4)
      (k.final none none) hm (sliverGraph eps A) 2 fuel [0, 1, 2] hG.sorted hf nameOf 2 hG.out hG.depth hG.used (hG.chain hb) (sliverNets eps A)
      (sliver_isNet eps A)
    obtain ⟨B, h1, h2⟩ := sliver_crown k.mode eps he slope (decide (k ≠ .crown)) (sliverWi eps A) (sliverCi A) (sliverWi_nonneg he hA)
    have e3 : out = convert2BackwardMode boxDomain Prod.mk k.mode (inputTensorsBox k.mode (fun _ => -(eps / 4)) fun _ => eps / 4) B := by
      have : (boxCrown k.mode eps slope (decide (k ≠ .crown)) (fun _ => -(eps / 4)) fun _ => eps / 4).model (sliverNets eps A 2) =
        .ok (convert2BackwardMode boxDomain Prod.mk k.mode (inputTensorsBox k.mode (fun _ => -(eps / 4)) fun _ => eps / 4) B) := by
        unfold CrownCfg.model
        exact congrArg (Except.map _) h1
      rw [e1] at this
      exact Except.ok.inj this
    refine ⟨_, hc _ (by simp only [hb, KGraph.runPlan, if_true]; exact e2), ?_⟩
    rw [hfin, e3]
    refine sliverRead_of eps A boxDomain k.mode _ _ (fun h j => ?_) (fun h => ?_) fun h => ?_
    · rw [h]; exact (sliver_constants eps A he hA B h2 j).1
    · rw [h]; exact (sliver_constants eps A he hA B h2 labB).2 rfl
    · have ha : getAffine k.mode = true := by cases hm' : k.mode <;> first | exact absurd hm' h | rfl
      simp only [convert2BackwardMode, ha, if_true]
      exact h2

/-- The outputs of the graph at the point `eps / 4`. -/
theorem sliver_value (eps A : ℝ) (he : 0 < eps) (y : (v : ℕ) → Idx ((sliverGraph eps A).sh v) → ℝ)
    (hy : (sliverGraph eps A).IsValue (fun _ => eps / 4) [0, 1, 2] y) :
    y 2 ((ravel [2]).symm labA) = 2 * A ∧ y 2 ((ravel [2]).symm labB) = 3 * A / 2 := by
  have hG := sliver_reluFor eps A .crown
  rw [C141_value (sliverGraph eps A) [0, 1, 2] hG.sorted (sliverNets eps A) (sliver_isNet eps A) _ y hy 2 hG.out]
  have e : ∀ j : Idx [2], (sliverDense (sliverWi eps A) (sliverCi A)).eval (fun _ => eps / 4) j =
      eps / 4 * sliverWi eps A default j + sliverCi A j := fun j => by
    have h : (0 : ℝ) ≤ eps / 4 := by linarith
    simp [sliverDense, Net.eval, Lay.eval, max_eq_left h]
    try ring
  constructor
  · refine (e _).trans ?_
    simp only [sliverWi, sliverCi, Equiv.apply_symm_apply, if_true]
    field_simp
    ring
  · refine (e _).trans ?_
    simp only [sliverWi, sliverCi, Equiv.apply_symm_apply, if_neg labB_ne]
    ring

theorem sliver_output (eps A : ℝ) (he : 0 < eps) (y : Fin [2].prod → ℝ) (hy : (sliverGraph eps A).IsOutput [0, 1, 2] 2 (fun _ => eps / 4) y) :
    y labA = 2 * A ∧ y labB = 3 * A / 2 := by
  obtain ⟨z, hz, h⟩ := hy
  obtain ⟨h1, h2⟩ := sliver_value eps A he z hz
  have e1 := h ((ravel [2]).symm labA)
  have e2 := h ((ravel [2]).symm labB)
  exact ⟨by rw [← h1, ← e1]; exact congrArg y (Equiv.apply_symm_apply (ravel [2]) labA).symm,
    by rw [← h2, ← e2]; exact congrArg y (Equiv.apply_symm_apply (ravel [2]) labB).symm⟩

instance : Nonempty (Fin [2].prod) := ⟨labA⟩

/-- C140: the claim is false for every method but `forward-ibp`, by any amount: over the box `[-eps/4, eps/4]` the upper bound of `get_range_box`
is at most `A` and the output reaches `2 A`; `get_adv_box` returns a negative score for the target label 0 against the source label 1, while
label 0 is the greater one at a point of the box. -/
theorem C140_refuted (eps A : ℝ) (he : 0 < eps) (hA : 0 < A) (k : Method) (hk : k ≠ .forwardIbp) (slope : Slope) (fuel : ℕ) (hf : 3 ≤ fuel + 1)
    (nameOf : ℕ → String) (batch batch' : ℕ) :
    ∃ (net : BoxOf (Fin 1) ℝ → Full (BoxOf (Idx [1]) ℝ) (Fin 1) (Fin [2].prod) ℝ) (us ls scs : List ℝ) (u sc : ℝ),
      (∀ b, (sliverGraph eps A).cloneOnBox k.value none none eps slope 2 (fuel + 1) [0, 1, 2] nameOf 2 b = .ok (net b)) ∧
      getRangeBox net k.mode batch 1 [sliverBox eps] = .ok (us, ls) ∧
      getAdvBoxOf [2] net k.mode batch' 1 [⟨sliverBox eps, fun j => if j = labB then 1 else 0, fun j => if j = labA then 1 else 0⟩] = .ok scs ∧
      us[0]? = some u ∧ scs = [sc] ∧ u ≤ A ∧ sc ≤ -(A / 2) ∧
      ∃ p ∈ Box (sliverBox eps).1 (sliverBox eps).2, ∃ y, (sliverGraph eps A).IsOutput [0, 1, 2] 2 p y ∧ u + A ≤ y labA ∧ y labB < y labA := by
  obtain ⟨net, h1⟩ : ∃ net : BoxOf (Fin 1) ℝ → Full (BoxOf (Idx [1]) ℝ) (Fin 1) (Fin [2].prod) ℝ, ∀ b,
      (sliverGraph eps A).cloneOnBox k.value none none eps slope 2 (fuel + 1) [0, 1, 2] nameOf 2 b = .ok (net b) :=
    (C142_onBox (sliverGraph eps A) [0, 1, 2] 2 2 k (sliver_reluFor eps A k) (sliverNets eps A) (sliver_isNet eps A) none none
    (by cases k <;> first | exact .inr rfl | exact .inl nofun) eps he slope fuel hf nameOf).imp fun _ h => h.1
  obtain ⟨f, e, hr⟩ := sliver_read eps A he hA k hk slope fuel hf nameOf
  obtain rfl : net (sliverBox eps) = f := Except.ok.inj ((h1 _).symm.trans e)
  obtain ⟨us, ls, scs, g1, g2, g3, g4⟩ := score_range (n := 0) net k.mode batch batch' 1 le_rfl
    [⟨sliverBox eps, fun j : Fin [2].prod => if j = labB then 1 else 0, fun j => if j = labA then 1 else 0⟩]
    (by
      intro r hr i
      obtain rfl := List.mem_singleton.1 hr
      simp only [sliverBox]; linarith)
    (by
      intro r hr
      obtain rfl := List.mem_singleton.1 hr
      refine ⟨fun j => ?_, fun j => ?_, ⟨labA, ?_⟩, ⟨labB, ?_⟩⟩ <;> dsimp only
      · split <;> simp
      · split <;> simp
      · exact if_pos rfl
      · exact if_pos rfl)
  obtain ⟨sc, rfl⟩ : ∃ sc, scs = [sc] := List.length_eq_one_iff.1 g3
  obtain ⟨⟨a, b, ha, hb, hsc⟩, hrange⟩ := g4 0 _ sc rfl rfl
  dsimp only at ha hb hsc hrange
  generalize net (sliverBox eps) = f at ha hb hsc hrange hr
  obtain ⟨y, hy, -⟩ := C132_output (sliverGraph eps A) [0, 1, 2] 2 2 (sliver_reluFor eps A k).toReady (fun _ => eps / 4)
  obtain ⟨v1, v2⟩ := sliver_output eps A he y hy
  have wA : sliverW eps A labA = 8 * A / eps := if_pos rfl
  have cA : sliverC A labA = 0 := if_pos rfl
  have hwA : 0 ≤ sliverW eps A labA / 4 := by rw [wA]; positivity
  have up : k.mode ≠ .ibp → getUpperBox (sliverBox eps).1 (sliverBox eps).2 (fun i => f.wu i labA) (f.bu labA) = A := by
    intro hm
    simp only [getUpperBox, Fintype.sum_unique, hr.wu hm, hr.bu hm, max_eq_left hwA, min_eq_right hwA, cA, sliverBox]
    rw [wA]; field_simp; ring
  have pairA : k.mode ≠ .ibp → affinePair (sliverBox eps) f labA labB = -(A / 2) := by
    intro hm
    have hw0 : 0 ≤ sliverW eps A labA / 4 - 0 := by rw [sub_zero]; exact hwA
    simp only [affinePair, getUpperBox, Fintype.sum_unique, hr.wu hm, hr.bu hm, hr.wl hm, hr.bl hm, max_eq_left hw0, min_eq_right hw0, cA, sliverBox]
    rw [wA]; field_simp; ring
  have uI : k.mode = .ibp → f.uc labA = A := fun hm => by
    rw [hr.uc hm, wA, cA]; field_simp; ring
  have only : ∀ P : Fin [2].prod → Fin [2].prod → ℝ, ∀ v,
      v ∈ pairValues (P, (fun j => if j = labB then (1 : ℝ) else 0), fun j => if j = labA then (1 : ℝ) else 0) → v = P labA labB := by
    rintro P v ⟨t, s, ht, hs, rfl⟩
    have e1 : t = labA := by by_contra h; exact zero_ne_one ((if_neg h).symm.trans ht)
    have e2 : s = labB := by by_contra h; exact zero_ne_one ((if_neg h).symm.trans hs)
    rw [e1, e2]
  have ea := only _ a ha.1
  have eb := only _ b hb.1
  refine ⟨net, us, ls, _, _, sc, h1, g1, by rw [C132_adv_shape [2] net k.mode (.inl rfl)]; exact g2, (hrange labA).1, rfl, ?_, ?_,
    fun _ => eps / 4, fun i => ⟨by simp only [sliverBox]; linarith, le_rfl⟩, y, hy, ?_, ?_⟩
  · cases hm : k.mode with
    | ibp => exact (uI hm).le
    | affine => exact (up (by rw [hm]; simp)).le
    | hybrid => exact (min_le_right _ _).trans (up (by rw [hm]; simp)).le
  · cases hm : k.mode with
    | ibp =>
      rw [hm] at hsc
      rw [hsc, ea]
      simp only [ibpPair]
      rw [uI hm, hr.lc hm]; linarith
    | affine =>
      rw [hm] at hsc
      rw [hsc, eb]; exact (pairA (by rw [hm]; simp)).le
    | hybrid =>
      rw [hm] at hsc
      rw [hsc, eb]; exact (min_le_right _ _).trans (pairA (by rw [hm]; simp)).le
  · rw [v1]
    have : rangeUpper k.mode (sliverBox eps) f labA ≤ A := by
      cases hm : k.mode with
      | ibp => exact (uI hm).le
      | affine => exact (up (by rw [hm]; simp)).le
      | hybrid => exact (min_le_right _ _).trans (up (by rw [hm]; simp)).le
    linarith
  · rw [v1, v2]; linarith

/-- C131: in affine and hybrid mode the tensors that `convert` returns for this graph do not bound its output. -/
theorem C131_affine_refuted (m : Mode) (hm : m ≠ .ibp) (eps A : ℝ) (he : 0 < eps) (hA : 0 < A) (slope : Slope) (fuel : ℕ) (nameOf : ℕ → String) :
    ∃ r : Full (BoxOf (Idx [1]) ℝ) (Idx [1]) (Idx [2]) ℝ,
      (sliverGraph eps A).convert boxDomain m m eps slope (inputTensorsBox m (fun _ => -(eps / 4)) fun _ => eps / 4) 2 (fuel + 1) [0, 1, 2] nameOf 2 =
        .ok (r.toList m) ∧
      ∃ p ∈ Box (fun _ : Idx [1] => -(eps / 4)) (fun _ => eps / 4), ∃ y, (sliverGraph eps A).IsValue p [0, 1, 2] y ∧ ¬ Valid m false r p (y 2) := by
  have hG := sliver_reluFor eps A .crown
  obtain ⟨⟨y, hy⟩, -⟩ := C131_value (sliverGraph eps A) [0, 1, 2] hG.sorted fun _ => eps / 4
  have ha : getAffine m = true := by cases m <;> first | exact absurd rfl hm | rfl
  refine ⟨_, C141_forward boxDomain m m (.inl hm) eps slope _ (sliverGraph eps A) 2 fuel [0, 1, 2] hG.sorted nameOf 2 hG.out hG.depth hG.used
    (sliverNets eps A) (sliver_isNet eps A), fun _ => eps / 4, fun i => ⟨by linarith, le_rfl⟩, y, hy, fun v => ?_⟩
  have h := (v.aff ha ((ravel [2]).symm labA)).2
  rw [(sliver_value eps A he y hy).1] at h
  have hl := sliver_forward m ha eps he slope (sliverWi eps A) (sliverCi A) (sliverWi_nonneg he hA)
  have e1 : ∀ i, (convert2Mode boxDomain m m ((sliverNets eps A 2).forward boxDomain m eps slope
      (inputTensorsBox m (fun _ => -(eps / 4)) fun _ => eps / 4))).wu i ((ravel [2]).symm labA) = 8 * A / eps / 4 := fun i => by
    have : _ = sliverWi eps A i ((ravel [2]).symm labA) / 4 := hl.wu i ((ravel [2]).symm labA)
    simp only [sliverWi, Equiv.apply_symm_apply, if_true] at this
    cases m <;> first | exact absurd rfl hm | exact this
  have e2 : (convert2Mode boxDomain m m ((sliverNets eps A 2).forward boxDomain m eps slope
      (inputTensorsBox m (fun _ => -(eps / 4)) fun _ => eps / 4))).bu ((ravel [2]).symm labA) = 8 * A / eps * eps / 16 + 0 := by
    have : _ = sliverWi eps A default ((ravel [2]).symm labA) * eps / 16 + sliverCi A ((ravel [2]).symm labA) := hl.bu ((ravel [2]).symm labA)
    simp only [sliverWi, sliverCi, Equiv.apply_symm_apply, if_true] at this
    cases m <;> first | exact absurd rfl hm | exact this
  have e3 : 8 * A / eps / 4 * (eps / 4) + (8 * A / eps * eps / 16 + 0) = A := by field_simp; ring
  simp only [affEval, Fintype.sum_unique] at h
  rw [e1, e2, e3] at h
  linarith

/-- C139: nor do those of a backward conversion, in any mode, with or without a forward pass. -/
theorem C139_refuted (m : Mode) (eps A : ℝ) (he : 0 < eps) (hA : 0 < A) (slope : Slope) (uf : Bool) (fuel : ℕ) (hf : 3 ≤ fuel + 1)
    (nameOf : ℕ → String) :
    ∃ r : Full (BoxOf (Idx [1]) ℝ) (Idx [1]) (Idx [2]) ℝ,
      (sliverGraph eps A).convertBackward boxDomain Prod.mk m m eps slope uf (inputTensorsBox m (fun _ => -(eps / 4)) fun _ => eps / 4) 2 (fuel + 1)
        [0, 1, 2] nameOf 2 = .ok ((r.toList m).map Ten.toB) ∧
      ∃ p ∈ Box (fun _ : Idx [1] => -(eps / 4)) (fun _ => eps / 4), ∃ y, (sliverGraph eps A).IsValue p [0, 1, 2] y ∧ ¬ Valid m false r p (y 2) := by
  have hG := sliver_reluFor eps A .crown
  obtain ⟨⟨y, hy⟩, -⟩ := C131_value (sliverGraph eps A) [0, 1, 2] hG.sorted fun _ => eps / 4
  obtain ⟨out, e1, e2⟩ := C141_backward (boxCrown m eps slope uf (fun _ => -(eps / 4)) fun _ => eps / 4) m (Decidable.not_or_of_imp id)
    (sliverGraph eps A) 2 fuel [0, 1, 2] hG.sorted hf nameOf 2 hG.out hG.depth hG.used (hG.chain rfl) (sliverNets eps A) (sliver_isNet eps A)
  obtain ⟨B, h1, h2⟩ := sliver_crown m eps he slope uf (sliverWi eps A) (sliverCi A) (sliverWi_nonneg he hA)
  have e3 : out = convert2BackwardMode boxDomain Prod.mk m (inputTensorsBox m (fun _ => -(eps / 4)) fun _ => eps / 4) B := by
    have : (boxCrown m eps slope uf (fun _ => -(eps / 4)) fun _ => eps / 4).model (sliverNets eps A 2) =
        .ok (convert2BackwardMode boxDomain Prod.mk m (inputTensorsBox m (fun _ => -(eps / 4)) fun _ => eps / 4) B) := by
      unfold CrownCfg.model
      exact congrArg (Except.map _) h1
    rw [e1] at this
    exact Except.ok.inj this
  refine ⟨_, e2, fun _ => eps / 4, fun i => ⟨by linarith, le_rfl⟩, y, hy, fun v => ?_⟩
  subst e3
  have c := (sliver_constants eps A he hA B h2 labA).1
  have w1 := fun i => h2.wu i ((ravel [2]).symm labA)
  have b1 := h2.bu ((ravel [2]).symm labA)
  simp only [sliverWi, sliverCi, Equiv.apply_symm_apply, if_true] at w1 b1
  rw [show sliverW eps A labA = 8 * A / eps from if_pos rfl, show sliverC A labA = 0 from if_pos rfl] at c
  have e4 : 8 * A / eps / 4 * (eps / 4) + (8 * A / eps * eps / 16 + 0) = A := by field_simp; ring
  have e5 : 8 * A / eps * eps / 8 + 0 = A := by field_simp; ring
  have hv := (sliver_value eps A he y hy).1
  cases m with
  | ibp =>
    have h := (v.const rfl ((ravel [2]).symm labA)).2
    rw [hv] at h
    have h' : 2 * A ≤ getUpperBox (fun _ => -(eps / 4)) (fun _ => eps / 4) (fun i => B.wu i ((ravel [2]).symm labA)) (B.bu ((ravel [2]).symm labA)) := h
    rw [c, e5] at h'
    linarith
  | affine =>
    have h := (v.aff rfl ((ravel [2]).symm labA)).2
    rw [hv] at h
    have h' : 2 * A ≤ affEval (fun i => B.wu i ((ravel [2]).symm labA)) (B.bu ((ravel [2]).symm labA)) fun _ => eps / 4 := h
    simp only [affEval, Fintype.sum_unique, w1, b1] at h'
    rw [e4] at h'
    linarith
  | hybrid =>
    have h := (v.aff rfl ((ravel [2]).symm labA)).2
    rw [hv] at h
    have h' : 2 * A ≤ affEval (fun i => B.wu i ((ravel [2]).symm labA)) (B.bu ((ravel [2]).symm labA)) fun _ => eps / 4 := h
    simp only [affEval, Fintype.sum_unique, w1, b1] at h'
    rw [e4] at h'
    linarith

/-- Both modes that keep affine bounds, and the three modes of a backward conversion, with the epsilon of Keras. -/
example := C131_affine_refuted .affine (by decide) (1 / 10000000) 1000 (by norm_num) (by norm_num) .vSlope 2 (fun v => toString v)

example := C131_affine_refuted .hybrid (by decide) (1 / 10000000) 1000 (by norm_num) (by norm_num) .vSlope 2 (fun v => toString v)

example (m : Mode) (uf : Bool) := C139_refuted m (1 / 10000000) 1000 (by norm_num) (by norm_num) .vSlope uf 2 le_rfl (fun v => toString v)

/-- The default method, with the epsilon of Keras. -/
example := C140_refuted (1 / 10000000) 1000 (by norm_num) (by norm_num) .crown (by decide) .vSlope 2 le_rfl (fun v => toString v) 1 1

end Decomon
