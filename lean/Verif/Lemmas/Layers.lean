import Verif.Model.Layers
import Verif.Lemmas.LayerUtils
import Verif.Props.LayerUtils

/-! Helper lemmas for layers. -/

namespace Decomon

theorem affEval_div {ι α : Type*} [Fintype ι] [Field α] (w : ι → α) (b n : α) (p : ι → α) :
    affEval (fun i => w i / n) (b / n) p = affEval w b p / n := by
  simp only [affEval, div_eq_mul_inv, add_mul, Finset.sum_mul]
  congr 1
  exact Finset.sum_congr rfl fun i _ => by ring

section Taps
variable {T ι α : Type*} [Fintype T] [Fintype ι] [Field α] [LinearOrder α] [IsStrictOrderedRing α]

theorem taps_upper (c y l u : T → α) (h : ∀ t, l t ≤ y t ∧ y t ≤ u t) :
    ∑ t, c t * y t ≤ ∑ t, max 0 (c t) * u t + ∑ t, min 0 (c t) * l t := by
  rw [← Finset.sum_add_distrib]
  gcongr with t
  rw [max_comm, min_comm]
  exact mul_le_posneg (h t).1 (h t).2

theorem taps_lower (c y l u : T → α) (h : ∀ t, l t ≤ y t ∧ y t ≤ u t) :
    ∑ t, max 0 (c t) * l t + ∑ t, min 0 (c t) * u t ≤ ∑ t, c t * y t := by
  rw [← Finset.sum_add_distrib]
  gcongr with t
  rw [max_comm, min_comm]
  exact posneg_le_mul (h t).1 (h t).2

/-- The upper bound of a linear combination over an interval vector is reached. -/
theorem taps_upper_attained (c l u : T → α) (h : ∀ t, l t ≤ u t) :
    ∃ y : T → α, (∀ t, l t ≤ y t ∧ y t ≤ u t) ∧
      ∑ t, c t * y t = ∑ t, max 0 (c t) * u t + ∑ t, min 0 (c t) * l t := by
  classical
  refine ⟨fun t => if 0 ≤ c t then u t else l t, fun t => ?_, ?_⟩
  · dsimp only; split
    · exact ⟨h t, le_rfl⟩
    · exact ⟨le_rfl, h t⟩
  · rw [← Finset.sum_add_distrib]
    refine Finset.sum_congr rfl fun t _ => ?_
    dsimp only
    split
    · next h => simp [h]
    · next h => rw [not_le] at h; simp [h.le]

theorem taps_lower_attained (c l u : T → α) (h : ∀ t, l t ≤ u t) :
    ∃ y : T → α, (∀ t, l t ≤ y t ∧ y t ≤ u t) ∧
      ∑ t, c t * y t = ∑ t, max 0 (c t) * l t + ∑ t, min 0 (c t) * u t := by
  classical
  refine ⟨fun t => if 0 ≤ c t then l t else u t, fun t => ?_, ?_⟩
  · dsimp only; split
    · exact ⟨le_rfl, h t⟩
    · exact ⟨h t, le_rfl⟩
  · rw [← Finset.sum_add_distrib]
    refine Finset.sum_congr rfl fun t _ => ?_
    dsimp only
    split
    · next h => simp [h]
    · next h => rw [not_le] at h; simp [h.le]

theorem taps_aff (a b : T → α) (w v : ι → T → α) (bw bv : T → α) (β : α) (p : ι → α) :
    affEval (fun i => ∑ t, a t * w i t + ∑ t, b t * v i t) (∑ t, a t * bw t + ∑ t, b t * bv t + β) p =
      ∑ t, a t * affEval (fun i => w i t) (bw t) p + ∑ t, b t * affEval (fun i => v i t) (bv t) p + β := by
  have e1 := affEval_sum Finset.univ (fun t i => a t * w i t) (fun t => a t * bw t) p
  have e2 := affEval_sum Finset.univ (fun t i => b t * v i t) (fun t => b t * bv t) p
  rw [affEval_add_const, affEval_add, e1, e2]
  simp only [affEval_smul]

theorem affEval_elim {S : Type*} (s : Option S) (w : ι → S → α) (b : S → α) (p : ι → α) :
    affEval (fun i => s.elim 0 (w i)) (s.elim 0 b) p = s.elim 0 fun s => affEval (fun i => w i s) (b s) p := by
  cases s <;> simp [affEval]

theorem taps_dc (c h g : T → α) (β : α) :
    ∑ t, max 0 (c t) * h t + ∑ t, min 0 (c t) * g t + max 0 β + (∑ t, max 0 (c t) * g t + ∑ t, min 0 (c t) * h t + min 0 β)
      = ∑ t, c t * (h t + g t) + β := by
  have e : ∀ x : α, x = max 0 x + min 0 x := fun x => by rw [max_comm, min_comm, pos_add_neg]
  have e1 : ∑ t, c t * (h t + g t) = ∑ t, (max 0 (c t) + min 0 (c t)) * (h t + g t) :=
    Finset.sum_congr rfl fun t _ => by rw [← e (c t)]
  rw [e1]
  conv_rhs => rw [e β]
  simp only [add_mul, mul_add, Finset.sum_add_distrib]
  ring

end Taps

section Layers
variable {X ι κ α : Type*} [Fintype ι] [Field α] [LinearOrder α] [IsStrictOrderedRing α]

theorem valid_linear {S O T Q : Type*} [Fintype T] (D : PertDomain X ι α) (m : Mode) (dc : Bool) (L : LinIndex S O T Q)
    (kernel : Q → α) (bias : O → α) (f : Full X ι S α) (R : Set (ι → α)) (hD : D.Sound f.x R)
    (p : ι → α) (hp : p ∈ R) (y : S → α) (v : Valid m dc f p y) :
    Valid m dc (linearLayerT D m dc L kernel bias f) p (fun o => L.apply kernel y o + bias o) := by
  obtain ⟨a, -⟩ := C04_tighten_valid D m dc false true f R hD p hp y v
  refine ⟨fun hi o => ?_, fun ha o => ?_, fun hd o => ?_⟩
  · simp only [linearLayerT, hi, if_true, LinIndex.apply]
    have h : ∀ t, (L.src o t).elim 0 (f.tighten D m false true).lc ≤ (L.src o t).elim 0 y ∧
        (L.src o t).elim 0 y ≤ (L.src o t).elim 0 (f.tighten D m false true).uc := by
      intro t
      cases L.src o t with
      | none => simp
      | some s => exact a.const hi s
    exact ⟨add_le_add (taps_lower _ _ _ _ h) le_rfl, add_le_add (taps_upper _ _ _ _ h) le_rfl⟩
  · simp only [linearLayerT, ha, if_true, LinIndex.apply]
    have h : ∀ t, (L.src o t).elim 0 (fun s => affEval (fun i => f.wl i s) (f.bl s) p) ≤ (L.src o t).elim 0 y ∧
        (L.src o t).elim 0 y ≤ (L.src o t).elim 0 (fun s => affEval (fun i => f.wu i s) (f.bu s) p) := by
      intro t
      cases L.src o t with
      | none => simp
      | some s => exact v.aff ha s
    rw [taps_aff, taps_aff]
    simp only [affEval_elim, tighten_wu, tighten_bu, tighten_wl, tighten_bl]
    exact ⟨add_le_add (taps_lower _ _ _ _ h) le_rfl, add_le_add (taps_upper _ _ _ _ h) le_rfl⟩
  · simp only [linearLayerT, hd, if_true, LinIndex.apply, tighten_h, tighten_g]
    rw [taps_dc]
    congr 1
    refine Finset.sum_congr rfl fun t _ => ?_
    cases L.src o t with
    | none => simp
    | some s => simp [v.dc hd s]

theorem valid_dense {n μ : Type*} [Fintype n] (D : PertDomain X ι α) (m : Mode) (dc : Bool)
    (kernel : n → μ → α) (bias : μ → α) (f : Full X ι n α) (R : Set (ι → α)) (hD : D.Sound f.x R)
    (p : ι → α) (hp : p ∈ R) (y : n → α) (v : Valid m dc f p y) :
    Valid m dc (denseT D m dc kernel bias f) p (fun o => (∑ t, kernel t o * y t) + bias o) := by
  obtain ⟨a, -⟩ := C04_tighten_valid D m dc false true f R hD p hp y v
  refine ⟨fun hi o => ?_, fun ha o => ?_, fun hd o => ?_⟩
  · simp only [denseT, hi, if_true]
    exact ⟨add_le_add (taps_lower _ _ _ _ (a.const hi)) le_rfl, add_le_add (taps_upper _ _ _ _ (a.const hi)) le_rfl⟩
  · simp only [denseT, ha, if_true]
    rw [taps_aff, taps_aff]
    simp only [tighten_wu, tighten_bu, tighten_wl, tighten_bl]
    exact ⟨add_le_add (taps_lower _ _ _ _ (v.aff ha)) le_rfl, add_le_add (taps_upper _ _ _ _ (v.aff ha)) le_rfl⟩
  · simp only [denseT, hd, if_true, tighten_h, tighten_g]
    rw [taps_dc]
    simp [v.dc hd]

theorem valid_batchNorm (D : PertDomain X ι α) (m : Mode) (gamma beta mean sd : κ → α) (hsd : ∀ k, 0 < sd k)
    (f : Full X ι κ α) (R : Set (ι → α)) (hD : D.Sound f.x R)
    (p : ι → α) (hp : p ∈ R) (y : κ → α) (v : Valid m false f p y) :
    Valid m false (batchNormT D m gamma beta mean sd f) p (fun k => gamma k * ((y k - mean k) / sd k) + beta k) := by
  obtain ⟨a, -⟩ := C04_tighten_valid D m false false true f R hD p hp y v
  have mono : ∀ k {s t : α}, s ≤ t → (s - mean k) / sd k ≤ (t - mean k) / sd k := fun k s t h =>
    div_le_div_of_nonneg_right (by linarith) (hsd k).le
  have aff : ∀ k (c d : α) (w w' : ι → α) (b b' : α),
      affEval (fun i => c * (w i / sd k) + d * (w' i / sd k))
        (c * ((b - mean k) / sd k) + d * ((b' - mean k) / sd k) + beta k) p =
      c * ((affEval w b p - mean k) / sd k) + d * ((affEval w' b' p - mean k) / sd k) + beta k := by
    intro k c d w w' b b'
    rw [affEval_add_const, affEval_add, affEval_smul, affEval_smul]
    have : ∀ (w : ι → α) (b : α), affEval (fun i => w i / sd k) ((b - mean k) / sd k) p = (affEval w b p - mean k) / sd k := by
      intro w b
      rw [affEval_div, sub_eq_add_neg, affEval_add_const, sub_eq_add_neg]
    rw [this, this]
  refine ⟨fun hi k => ?_, fun ha k => ?_, by simp⟩
  · simp only [batchNormT, hi, if_true]
    rw [max_comm, min_comm]
    obtain ⟨c1, c2⟩ := a.const hi k
    exact ⟨add_le_add (posneg_le_mul (mono k c1) (mono k c2)) le_rfl,
      add_le_add (mul_le_posneg (mono k c1) (mono k c2)) le_rfl⟩
  · simp only [batchNormT, ha, if_true, tighten_wu, tighten_bu, tighten_wl, tighten_bl]
    rw [aff, aff, max_comm, min_comm]
    obtain ⟨c1, c2⟩ := v.aff ha k
    exact ⟨add_le_add (posneg_le_mul (mono k c1) (mono k c2)) le_rfl,
      add_le_add (mul_le_posneg (mono k c1) (mono k c2)) le_rfl⟩

theorem valid_reindex {κ' : Type*} (D : PertDomain X ι α) (m : Mode) (dc : Bool) (e : κ' → κ)
    (f : Full X ι κ α) (R : Set (ι → α)) (hD : D.Sound f.x R)
    (p : ι → α) (hp : p ∈ R) (y : κ → α) (v : Valid m dc f p y) :
    Valid m dc (reindexT D m dc e f) p (fun k => y (e k)) := by
  obtain ⟨a, -⟩ := C04_tighten_valid D m dc false true f R hD p hp y v
  refine ⟨fun hi k => ?_, fun ha k => ?_, fun hd k => ?_⟩
  · simp only [reindexT, hi, if_true]; exact a.const hi (e k)
  · simp only [reindexT, ha, if_true]; exact a.aff ha (e k)
  · simp only [reindexT, hd, if_true]; exact a.dc hd (e k)

omit [IsStrictOrderedRing α] in
theorem valid_reindex_raw {κ' : Type*} (m : Mode) (dc : Bool) (e : κ' → κ) (f : Full X ι κ α)
    (p : ι → α) (y : κ → α) (v : Valid m dc f p y) : Valid m dc (f.reindex e) p (fun k => y (e k)) :=
  ⟨fun hi k => v.const hi (e k), fun ha k => v.aff ha (e k), fun hd k => v.dc hd (e k)⟩

/-! Lists of inputs. -/

theorem forall2_sum_le {β γ : Type*} {R : β → γ → Prop} {F : β → α} {G : γ → α} {l : List β} {l' : List γ}
    (h : List.Forall₂ R l l') (hR : ∀ a b, R a b → F a ≤ G b) : (l.map F).sum ≤ (l'.map G).sum := by
  induction h with
  | nil => simp
  | cons h1 _ ih => simp only [List.map_cons, List.sum_cons]; exact add_le_add (hR _ _ h1) ih

theorem forall2_le_sum {β γ : Type*} {R : β → γ → Prop} {F : β → α} {G : γ → α} {l : List β} {l' : List γ}
    (h : List.Forall₂ R l l') (hR : ∀ a b, R a b → G b ≤ F a) : (l'.map G).sum ≤ (l.map F).sum := by
  induction h with
  | nil => simp
  | cons h1 _ ih => simp only [List.map_cons, List.sum_cons]; exact add_le_add (hR _ _ h1) ih

theorem affEval_list_sum {β : Type*} (l : List β) (w : β → ι → α) (b : β → α) (p : ι → α) :
    affEval (fun i => (l.map fun f => w f i).sum) (l.map b).sum p = (l.map fun f => affEval (w f) (b f) p).sum := by
  induction l with
  | nil => simp [affEval]
  | cons a t ih => simp only [List.map_cons, List.sum_cons]; rw [affEval_add, ih]

theorem valid_addLayer (D : PertDomain X ι α) (m : Mode) (f0 : Full X ι κ α) (fs : List (Full X ι κ α)) (R : Set (ι → α))
    (p : ι → α) (hp : p ∈ R) (y0 : κ → α) (ys : List (κ → α)) (h0 : D.Sound f0.x R) (v0 : Valid m false f0 p y0)
    (h : List.Forall₂ (fun f y => D.Sound f.x R ∧ Valid m false f p y) fs ys) :
    Valid m false (addLayerT D m f0 fs) p (fun k => ((y0 :: ys).map (fun y => y k)).sum) := by
  have h' : List.Forall₂ (fun f y => D.Sound f.x R ∧ Valid m false f p y) (f0 :: fs) (y0 :: ys) := .cons ⟨h0, v0⟩ h
  have key : ∀ (f : Full X ι κ α) y, D.Sound f.x R ∧ Valid m false f p y → Valid m false (f.tighten D m false true) p y :=
    fun f y hf => (C04_tighten_valid D m false false true f R hf.1 p hp y hf.2).1
  refine ⟨fun hi k => ?_, fun ha k => ?_, by simp⟩
  · simp only [addLayerT, hi, if_true, List.map_map]
    exact ⟨forall2_sum_le h' fun f y hf => ((key f y hf).const hi k).1,
      forall2_le_sum h' fun f y hf => ((key f y hf).const hi k).2⟩
  · simp only [addLayerT, ha, if_true, List.map_map, Function.comp_def]
    rw [affEval_list_sum, affEval_list_sum]
    exact ⟨forall2_sum_le h' fun f y hf => ((key f y hf).aff ha k).1,
      forall2_le_sum h' fun f y hf => ((key f y hf).aff ha k).2⟩

theorem averageLayer_eq (D : PertDomain X ι α) (m : Mode) (f0 : Full X ι κ α) (fs : List (Full X ι κ α)) :
    averageLayerT D m f0 fs =
      let g := addLayerT D m f0 fs
      let n : α := ((f0 :: fs).length : α)
      ⟨g.x, fun k => g.uc k / n, fun i k => g.wu i k / n, fun k => g.bu k / n, fun k => g.lc k / n,
        fun i k => g.wl i k / n, fun k => g.bl k / n, fun _ => 0, fun _ => 0⟩ := by
  cases m <;> simp [averageLayerT, addLayerT, getIbp, getAffine]

theorem valid_averageLayer (D : PertDomain X ι α) (m : Mode) (f0 : Full X ι κ α) (fs : List (Full X ι κ α))
    (R : Set (ι → α)) (p : ι → α) (hp : p ∈ R) (y0 : κ → α) (ys : List (κ → α)) (h0 : D.Sound f0.x R)
    (v0 : Valid m false f0 p y0)
    (h : List.Forall₂ (fun f y => D.Sound f.x R ∧ Valid m false f p y) fs ys) :
    Valid m false (averageLayerT D m f0 fs) p
      (fun k => ((y0 :: ys).map (fun y => y k)).sum / ((y0 :: ys).length : α)) := by
  have a := valid_addLayer D m f0 fs R p hp y0 ys h0 v0 h
  have hl : (f0 :: fs).length = (y0 :: ys).length := by simp [h.length_eq]
  have hn : (0 : α) < ((y0 :: ys).length : α) := by exact_mod_cast Nat.succ_pos _
  rw [averageLayer_eq, hl]
  refine ⟨fun hi k => ?_, fun ha k => ?_, by simp⟩
  · exact ⟨div_le_div_of_nonneg_right (a.const hi k).1 hn.le, div_le_div_of_nonneg_right (a.const hi k).2 hn.le⟩
  · dsimp only
    rw [affEval_div, affEval_div]
    exact ⟨div_le_div_of_nonneg_right (a.aff ha k).1 hn.le, div_le_div_of_nonneg_right (a.aff ha k).2 hn.le⟩

/-- The partial maxima met while folding avoid the sliver of the ReLU hull. -/
def FoldSliverFree (D : PertDomain X ι α) (m : Mode) (eps : α) : Full X ι κ α → List (Full X ι κ α) → Prop
  | _, [] => True
  | acc, f :: fs => SliverFree D m eps (subtractT D m f acc) ∧
      FoldSliverFree D m eps (maximumT D m false eps (fun _ => 1) acc f) fs

omit [IsStrictOrderedRing α] [Fintype ι] in
theorem maximumT_x (D : PertDomain X ι α) (m : Mode) (dc : Bool) (eps : α) (g : κ → α) (f0 f1 : Full X ι κ α) :
    (maximumT D m dc eps g f0 f1).x = f1.x := by
  simp [maximumT, addT, reluT, subtractT]

theorem valid_maximumLayer (D : PertDomain X ι α) (m : Mode) (eps : α) (he : 0 < eps) (R : Set (ι → α))
    (p : ι → α) (hp : p ∈ R) : ∀ (f0 : Full X ι κ α) (fs : List (Full X ι κ α)) (y0 : κ → α) (ys : List (κ → α)),
    D.Sound f0.x R → Valid m false f0 p y0 →
    List.Forall₂ (fun f y => D.Sound f.x R ∧ Valid m false f p y) fs ys → FoldSliverFree D m eps f0 fs →
    Valid m false (maximumLayerT D m eps f0 fs) p (fun k => (ys.map fun y => y k).foldl max (y0 k)) := by
  intro f0 fs y0 ys h0 v0 h
  induction h generalizing f0 y0 with
  | nil => intro _; simpa [maximumLayerT] using v0
  | @cons f y fs ys hf _ ih =>
    intro hs
    have := ih (maximumT D m false eps (fun _ => 1) f0 f) (fun k => max (y0 k) (y k))
      (by rw [maximumT_x]; exact hf.1)
      (C08_maximum_valid_partial D m false eps he (fun _ => 1) (fun _ => ⟨zero_le_one, le_rfl⟩) f0 f R h0 hf.1 hs.1 p hp
        y0 y v0 hf.2) hs.2
    simpa [maximumLayerT] using this

theorem foldl_max_neg (l : List α) (a : α) : - (l.map (fun x => -x)).foldl max (-a) = l.foldl min a := by
  induction l generalizing a with
  | nil => simp
  | cons b t ih =>
    simp only [List.map_cons, List.foldl_cons]
    rw [max_neg_neg, ih]

theorem valid_multiplyLayer (D : PertDomain X ι α) (m : Mode) (R : Set (ι → α)) (p : ι → α) (hp : p ∈ R) :
    ∀ (f0 : Full X ι κ α) (fs : List (Full X ι κ α)) (y0 : κ → α) (ys : List (κ → α)),
    D.Sound f0.x R → Valid m false f0 p y0 →
    List.Forall₂ (fun f y => D.Sound f.x R ∧ Valid m false f p y) fs ys →
    Valid m false (multiplyLayerT D m f0 fs) p (fun k => y0 k * (ys.map fun y => y k).prod) := by
  intro f0 fs y0 ys h0 v0 h
  induction h generalizing f0 y0 with
  | nil => simpa [multiplyLayerT] using v0
  | @cons f y fs ys hf _ ih =>
    have := ih (multiplyT D m f0 f) (fun k => y0 k * y k) (by simpa [multiplyT] using h0)
      (C09_multiply_valid D m f0 f R h0 hf.1 p hp y0 y v0 hf.2)
    simpa [multiplyLayerT, mul_assoc] using this

end Layers

end Decomon
