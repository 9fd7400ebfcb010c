import Verif.Lemmas.Layers

/-! Properties C10 - C15, C61, C62. -/

namespace Decomon

section
variable {X ι κ α : Type*} [Fintype ι] [Field α] [LinearOrder α] [IsStrictOrderedRing α]

/-- C10: Dense, inputs of rank 2. -/
theorem C10_dense_valid {n μ : Type*} [Fintype n] (D : PertDomain X ι α) (m : Mode) (dc : Bool)
    (kernel : n → μ → α) (bias : μ → α) (f : Full X ι n α) (R : Set (ι → α)) (hD : D.Sound f.x R)
    (p : ι → α) (hp : p ∈ R) (y : n → α) (v : Valid m dc f p y) :
    Valid m dc (denseT D m dc kernel bias f) p (fun o => (∑ t, kernel t o * y t) + bias o) :=
  valid_dense D m dc kernel bias f R hD p hp y v

/-- C10: Dense on inputs of any rank (`outer × n`): the layer acts on the last axis only. -/
theorem C10_dense_any_rank_valid {β n μ : Type*} [Fintype n] (D : PertDomain X ι α) (m : Mode) (dc : Bool)
    (kernel : n × μ → α) (bias : μ → α) (f : Full X ι (β × n) α) (R : Set (ι → α)) (hD : D.Sound f.x R)
    (p : ι → α) (hp : p ∈ R) (y : β × n → α) (v : Valid m dc f p y) :
    Valid m dc (linearLayerT D m dc (denseIndex β n μ) kernel (fun o => bias o.2) f) p
      (fun o => (∑ t, kernel (t, o.2) * y (o.1, t)) + bias o.2) :=
  valid_linear D m dc (denseIndex β n μ) kernel (fun o => bias o.2) f R hD p hp y v

/-- C10: in ibp mode both constant bounds of each output are reached by some input between the given bounds: they cannot be
improved. -/
theorem C10_dense_ibp_exact {n μ : Type*} [Fintype n] (D : PertDomain X ι α) (dc : Bool)
    (kernel : n → μ → α) (bias : μ → α) (f : Full X ι n α) (hlu : ∀ t, f.lc t ≤ f.uc t) (o : μ) :
    (∃ y : n → α, (∀ t, f.lc t ≤ y t ∧ y t ≤ f.uc t) ∧
      (∑ t, kernel t o * y t) + bias o = (denseT D .ibp dc kernel bias f).uc o) ∧
    (∃ y : n → α, (∀ t, f.lc t ≤ y t ∧ y t ≤ f.uc t) ∧
      (∑ t, kernel t o * y t) + bias o = (denseT D .ibp dc kernel bias f).lc o) := by
  obtain ⟨y, h1, h2⟩ := taps_upper_attained (fun t => kernel t o) f.lc f.uc hlu
  obtain ⟨z, h3, h4⟩ := taps_lower_attained (fun t => kernel t o) f.lc f.uc hlu
  refine ⟨⟨y, h1, ?_⟩, ⟨z, h3, ?_⟩⟩
  · rw [h2]; rfl
  · rw [h4]; rfl

/-- C10: the branch taken when the layer input is the model input itself (weights of the rank of the bias): both affine
bounds are the layer function itself. -/
theorem C10_dense_identity_exact {n μ : Type*} [Fintype n] (kernel : n → μ → α) (bias : μ → α) (p : n → α) (o : μ) :
    let r := denseIdentityT kernel bias
    affEval (fun t => r.1 t o) (r.2.1 o) p = (∑ t, kernel t o * p t) + bias o ∧
      affEval (fun t => r.2.2.1 t o) (r.2.2.2 o) p = (∑ t, kernel t o * p t) + bias o := by
  simp [denseIdentityT, affEval]

/-- C61: with backward bounds, ibp mode: bounds of the linear combination `C` of the layer outputs; NotImplementedError when
affine bounds are requested.  Missing with respect to the full claim: a bias for which `∑ o, C o c * bias c` is not `∑ o, C o c * bias o`
(refuted below). -/
theorem C61_dense_back_valid_partial {n μ : Type*} [Fintype n] [Fintype μ] (D : PertDomain X ι α) (m : Mode)
    (kernel : n → μ → α) (bias : μ → α) (back : μ → μ → α) (f : Full X ι n α) (p : ι → α)
    (y : n → α) (v : Valid m false f p y) (hb : ∀ c, ∑ o, back o c * bias c = ∑ o, back o c * bias o) :
    (getAffine m = true → denseBackT D m kernel bias back f = .error .notImplemented) ∧
    (getAffine m = false → ∃ u l, denseBackT D m kernel bias back f = .ok (u, l) ∧
      ∀ c, l c ≤ ∑ o, back o c * ((∑ t, kernel t o * y t) + bias o) ∧
        ∑ o, back o c * ((∑ t, kernel t o * y t) + bias o) ≤ u c) := by
  refine ⟨fun h => by simp [denseBackT, h], fun h => ?_⟩
  have hm : m = .ibp := by cases m <;> simp_all [getAffine]
  subst hm
  refine ⟨_, _, rfl, fun c => ?_⟩
  have e : ∑ o, back o c * ((∑ t, kernel t o * y t) + bias o) =
      ∑ t, (∑ o, kernel t o * back o c) * y t + ∑ o, back o c * bias o := by
    simp only [mul_add, Finset.sum_add_distrib, Finset.mul_sum, Finset.sum_mul]
    rw [Finset.sum_comm]
    congr 1
    exact Finset.sum_congr rfl fun t _ => Finset.sum_congr rfl fun o _ => by ring
  rw [e, ← hb c]
  exact ⟨add_le_add (taps_lower _ _ _ _ (v.const rfl)) le_rfl, add_le_add (taps_upper _ _ _ _ (v.const rfl)) le_rfl⟩

/-- C61: combining inside the layer is never looser than combining the bounds of the layer outputs, for the same biases. -/
theorem C61_dense_back_tighter_partial {n μ : Type*} [Fintype n] [Fintype μ] (D : PertDomain X ι α)
    (kernel : n → μ → α) (bias : μ → α) (back : μ → μ → α) (hb : ∀ c, ∑ o, back o c * bias c = ∑ o, back o c * bias o) (f : Full X ι n α) (hlu : ∀ t, f.lc t ≤ f.uc t)
    (u l : μ → α) (h : denseBackT D .ibp kernel bias back f = .ok (u, l)) (c : μ) :
    let d := denseT D .ibp false kernel bias f
    u c ≤ ∑ o, max (back o c) 0 * d.uc o + ∑ o, min (back o c) 0 * d.lc o ∧
      ∑ o, max (back o c) 0 * d.lc o + ∑ o, min (back o c) 0 * d.uc o ≤ l c := by
  intro d
  have key : ∀ y : n → α, (∀ t, f.lc t ≤ y t ∧ y t ≤ f.uc t) → ∀ o, d.lc o ≤ (∑ t, kernel t o * y t) + bias o ∧
      (∑ t, kernel t o * y t) + bias o ≤ d.uc o := fun y hy o =>
    ⟨add_le_add (taps_lower _ _ _ _ hy) le_rfl, add_le_add (taps_upper _ _ _ _ hy) le_rfl⟩
  have e : ∀ y : n → α, ∑ o, back o c * ((∑ t, kernel t o * y t) + bias o) =
      ∑ t, (∑ o, kernel t o * back o c) * y t + ∑ o, back o c * bias o := by
    intro y
    simp only [mul_add, Finset.sum_add_distrib, Finset.mul_sum, Finset.sum_mul]
    rw [Finset.sum_comm]
    congr 1
    exact Finset.sum_congr rfl fun t _ => Finset.sum_congr rfl fun o _ => by ring
  have h' : denseBackT D .ibp kernel bias back f = .ok (_, _) := rfl
  rw [h'] at h
  obtain ⟨hu, hl⟩ := Prod.mk.inj (Except.ok.inj h)
  obtain ⟨y, h1, h2⟩ := taps_upper_attained (fun t => ∑ o, kernel t o * back o c) f.lc f.uc hlu
  obtain ⟨z, h3, h4⟩ := taps_lower_attained (fun t => ∑ o, kernel t o * back o c) f.lc f.uc hlu
  have t1 := taps_upper (fun o => back o c) _ _ _ (key y h1)
  have t2 := taps_lower (fun o => back o c) _ _ _ (key z h3)
  rw [e y, h2, ← hb c] at t1
  rw [e z, h4, ← hb c] at t2
  simp only [max_comm (0 : α), min_comm (0 : α)] at t1 t2
  constructor
  · refine le_trans (le_of_eq ?_) t1
    rw [← hu]; simp only [max_comm (0 : α), min_comm (0 : α)]; rfl
  · refine le_trans t2 (le_of_eq ?_)
    rw [← hl]; simp only [max_comm (0 : α), min_comm (0 : α)]; rfl

/-- The image `x` extended by zero to all integer positions. -/
def imageAt {h w c : ℕ} (x : Fin h × Fin w × Fin c → α) (r s : ℤ) (ch : Fin c) : α :=
  if hh : (0 ≤ r ∧ r < h) ∧ 0 ≤ s ∧ s < w then
    x (⟨r.toNat, by omega⟩, ⟨s.toNat, by omega⟩, ch)
  else 0

theorem paddedSrc_elim {h w cin : ℕ} (p0 p1 A B : ℕ) (x : Fin h × Fin w × Fin cin → α) (ch : Fin cin) :
    (paddedSrc p0 p1 A B ch).elim 0 x = imageAt x ((A : ℤ) - p0) ((B : ℤ) - p1) ch := by
  unfold imageAt paddedSrc
  by_cases h1 : p0 ≤ A ∧ A - p0 < h
  · by_cases h2 : p1 ≤ B ∧ B - p1 < w
    · rw [dif_pos h1, dif_pos h2, dif_pos (by omega)]
      simp only [Option.elim]
      congr 2
      · apply Fin.ext; simp only; omega
      · congr 1; apply Fin.ext; simp only; omega
    · rw [dif_pos h1, dif_neg h2, dif_neg (by omega)]; rfl
  · rw [dif_neg h1, dif_neg (by omega)]; rfl

/-- C11: the index map of the model is the textbook strided, dilated, zero-padded convolution. -/
theorem C11_conv_index (h w cin kh kw cout oh ow s0 s1 d0 d1 p0 p1 : ℕ)
    (kernel : Fin kh × Fin kw × Fin cin × Fin cout → α) (x : Fin h × Fin w × Fin cin → α)
    (o : Fin oh × Fin ow × Fin cout) :
    (conv2dIndex h w cin kh kw cout oh ow s0 s1 d0 d1 p0 p1).apply kernel x o =
      ∑ t : Fin kh × Fin kw × Fin cin, kernel (t.1, t.2.1, t.2.2, o.2.2) *
        imageAt x ((o.1.val : ℤ) * s0 + t.1.val * d0 - p0) ((o.2.1.val : ℤ) * s1 + t.2.1.val * d1 - p1) t.2.2 := by
  unfold LinIndex.apply
  refine Finset.sum_congr rfl fun t _ => ?_
  simp only [conv2dIndex, paddedSrc_elim]
  push_cast
  rfl

/-- C11: Conv2D, for any stride, dilation, zero padding and sizes. -/
theorem C11_conv_valid (h w cin kh kw cout oh ow s0 s1 d0 d1 p0 p1 : ℕ) (D : PertDomain X ι α) (m : Mode) (dc : Bool)
    (kernel : Fin kh × Fin kw × Fin cin × Fin cout → α) (bias : Fin cout → α)
    (f : Full X ι (Fin h × Fin w × Fin cin) α) (R : Set (ι → α)) (hD : D.Sound f.x R)
    (p : ι → α) (hp : p ∈ R) (y : Fin h × Fin w × Fin cin → α) (v : Valid m dc f p y) :
    Valid m dc (linearLayerT D m dc (conv2dIndex h w cin kh kw cout oh ow s0 s1 d0 d1 p0 p1) kernel
        (fun o => bias o.2.2) f) p
      (fun o => (∑ t : Fin kh × Fin kw × Fin cin, kernel (t.1, t.2.1, t.2.2, o.2.2) *
        imageAt y ((o.1.val : ℤ) * s0 + t.1.val * d0 - p0) ((o.2.1.val : ℤ) * s1 + t.2.1.val * d1 - p1) t.2.2)
          + bias o.2.2) := by
  have := valid_linear D m dc (conv2dIndex h w cin kh kw cout oh ow s0 s1 d0 d1 p0 p1) kernel
    (fun o => bias o.2.2) f R hD p hp y v
  simpa only [C11_conv_index] using this

/-- C11: the same for any linear operator given by an index map (other data formats, other ranks). -/
theorem C11_linear_valid {S O T Q : Type*} [Fintype T] (D : PertDomain X ι α) (m : Mode) (dc : Bool) (L : LinIndex S O T Q)
    (kernel : Q → α) (bias : O → α) (f : Full X ι S α) (R : Set (ι → α)) (hD : D.Sound f.x R)
    (p : ι → α) (hp : p ∈ R) (y : S → α) (v : Valid m dc f p y) :
    Valid m dc (linearLayerT D m dc L kernel bias f) p
      (fun o => (∑ t, kernel (L.kidx o t) * (match L.src o t with | none => 0 | some s => y s)) + bias o) := by
  have := valid_linear D m dc L kernel bias f R hD p hp y v
  have e : (fun o => L.apply kernel y o + bias o) =
      fun o => (∑ t, kernel (L.kidx o t) * (match L.src o t with | none => 0 | some s => y s)) + bias o := by
    funext o
    unfold LinIndex.apply
    congr 1
    refine Finset.sum_congr rfl fun t _ => ?_
    cases L.src o t <;> rfl
  rw [e] at this
  exact this

/-- C13: Flatten, Reshape, Permute: valid for the moved value. -/
theorem C13_reindex_valid {κ' : Type*} (D : PertDomain X ι α) (m : Mode) (dc : Bool) (e : κ' → κ)
    (f : Full X ι κ α) (R : Set (ι → α)) (hD : D.Sound f.x R)
    (p : ι → α) (hp : p ∈ R) (y : κ → α) (v : Valid m dc f p y) :
    Valid m dc (reindexT D m dc e f) p (fun k => y (e k)) :=
  valid_reindex D m dc e f R hD p hp y v

/-- C13: no entry is mixed with another one: each output entry carries the tensors of one input entry, unchanged in the
affine part and at least as tight in the constant part. -/
theorem C13_reindex_unmixed {κ' : Type*} (D : PertDomain X ι α) (m : Mode) (dc : Bool) (e : κ' → κ)
    (f : Full X ι κ α) (k : κ') :
    (getAffine m = true → (∀ i, (reindexT D m dc e f).wu i k = f.wu i (e k) ∧ (reindexT D m dc e f).wl i k = f.wl i (e k)) ∧
      (reindexT D m dc e f).bu k = f.bu (e k) ∧ (reindexT D m dc e f).bl k = f.bl (e k)) ∧
    (m = .ibp → (reindexT D m dc e f).uc k = f.uc (e k) ∧ (reindexT D m dc e f).lc k = f.lc (e k)) ∧
    (m = .hybrid → (reindexT D m dc e f).uc k ≤ f.uc (e k) ∧ f.lc (e k) ≤ (reindexT D m dc e f).lc k) := by
  refine ⟨fun ha => by simp [reindexT, ha], fun h => by subst h; simp [reindexT, getIbp, Full.tighten], fun h => ?_⟩
  subst h
  simp [reindexT, getIbp, Full.tighten]

omit [Fintype ι] [IsStrictOrderedRing α] in
/-- C13: Dropout is the identity in inference and raises in training. -/
theorem C13_dropout (f : Full X ι κ α) :
    dropoutT false f = .ok f ∧ dropoutT true f = .error .notImplemented := by
  simp [dropoutT, inferenceOnly]

/-- C14: Add, any number of inputs. -/
theorem C14_add_valid (D : PertDomain X ι α) (m : Mode) (f0 : Full X ι κ α) (fs : List (Full X ι κ α)) (R : Set (ι → α))
    (p : ι → α) (hp : p ∈ R) (y0 : κ → α) (ys : List (κ → α)) (h0 : D.Sound f0.x R) (v0 : Valid m false f0 p y0)
    (h : List.Forall₂ (fun f y => D.Sound f.x R ∧ Valid m false f p y) fs ys) :
    Valid m false (addLayerT D m f0 fs) p (fun k => ((y0 :: ys).map (fun y => y k)).sum) :=
  valid_addLayer D m f0 fs R p hp y0 ys h0 v0 h

/-- C14: Average, any number of inputs. -/
theorem C14_average_valid (D : PertDomain X ι α) (m : Mode) (f0 : Full X ι κ α) (fs : List (Full X ι κ α))
    (R : Set (ι → α)) (p : ι → α) (hp : p ∈ R) (y0 : κ → α) (ys : List (κ → α)) (h0 : D.Sound f0.x R)
    (v0 : Valid m false f0 p y0)
    (h : List.Forall₂ (fun f y => D.Sound f.x R ∧ Valid m false f p y) fs ys) :
    Valid m false (averageLayerT D m f0 fs) p
      (fun k => ((y0 :: ys).map (fun y => y k)).sum / ((y0 :: ys).length : α)) :=
  valid_averageLayer D m f0 fs R p hp y0 ys h0 v0 h

/-- C14: Subtract. -/
theorem C14_subtract_valid (D : PertDomain X ι α) (m : Mode) (l : List (Full X ι κ α)) (R : Set (ι → α))
    (p : ι → α) (hp : p ∈ R) :
    (∀ f0 f1 y0 y1, l = [f0, f1] → D.Sound f0.x R → D.Sound f1.x R → Valid m false f0 p y0 → Valid m false f1 p y1 →
      ∃ r, subtractLayerT D m false l = .ok r ∧ Valid m false r p (fun k => y0 k - y1 k)) ∧
    (l.length ≠ 2 → subtractLayerT D m false l = .error .valueError) ∧
    subtractLayerT D m true l = .error .notImplemented := by
  refine ⟨fun f0 f1 y0 y1 hl h0 h1 v0 v1 => ?_, fun hl => ?_, rfl⟩
  · subst hl
    exact ⟨_, rfl, C07_subtract_valid D m false f0 f1 R h0 h1 p hp y0 y1 v0 v1⟩
  · match l, hl with
    | [], _ => rfl
    | [_], _ => rfl
    | [_, _], hl => exact absurd rfl hl
    | _ :: _ :: _ :: _, _ => rfl

/-- C14: Maximum, any number of inputs.  Missing with respect to the full claim: differences that fall in the sliver of the
ReLU hull at some step of the fold (affine and hybrid modes only). -/
theorem C14_maximum_valid_partial (D : PertDomain X ι α) (m : Mode) (eps : α) (he : 0 < eps) (R : Set (ι → α))
    (p : ι → α) (hp : p ∈ R) (f0 : Full X ι κ α) (fs : List (Full X ι κ α)) (y0 : κ → α) (ys : List (κ → α))
    (h0 : D.Sound f0.x R) (v0 : Valid m false f0 p y0)
    (h : List.Forall₂ (fun f y => D.Sound f.x R ∧ Valid m false f p y) fs ys) (hs : FoldSliverFree D m eps f0 fs) :
    Valid m false (maximumLayerT D m eps f0 fs) p (fun k => (ys.map fun y => y k).foldl max (y0 k)) :=
  valid_maximumLayer D m eps he R p hp f0 fs y0 ys h0 v0 h hs

/-- C14: Minimum, any number of inputs.  Missing: as for the maximum. -/
theorem C14_minimum_valid_partial (D : PertDomain X ι α) (m : Mode) (eps : α) (he : 0 < eps) (R : Set (ι → α))
    (p : ι → α) (hp : p ∈ R) (f0 : Full X ι κ α) (fs : List (Full X ι κ α)) (y0 : κ → α) (ys : List (κ → α))
    (h0 : D.Sound f0.x R) (v0 : Valid m false f0 p y0)
    (h : List.Forall₂ (fun f y => D.Sound f.x R ∧ Valid m false f p y) fs ys)
    (hs : FoldSliverFree D m eps (minusT D m f0) (fs.map (minusT D m))) :
    Valid m false (minimumLayerT D m eps f0 fs) p (fun k => (ys.map fun y => y k).foldl min (y0 k)) := by
  have h' : List.Forall₂ (fun f y => D.Sound f.x R ∧ Valid m false f p y) (fs.map (minusT D m))
      (ys.map fun y k => - y k) := by
    rw [List.forall₂_map_left_iff, List.forall₂_map_right_iff]
    exact h.imp fun f y hf => ⟨by simpa [minusT] using hf.1, valid_minus D m false f p y hf.2⟩
  have a := valid_maximumLayer D m eps he R p hp (minusT D m f0) _ (fun k => - y0 k) _ (by simpa [minusT] using h0)
    (valid_minus D m false f0 p y0 v0) h' hs
  have b := valid_minus D m false _ p _ a
  have e : (fun k => - ((ys.map fun y k => - y k).map fun y => y k).foldl max (- y0 k)) =
      fun k => (ys.map fun y => y k).foldl min (y0 k) := by
    funext k
    rw [← foldl_max_neg]
    simp [Function.comp_def]
  rw [e] at b
  cases h with
  | nil => simpa [minimumLayerT] using v0
  | cons _ _ => exact b

/-- C14: Maximum and Minimum in ibp mode: no restriction. -/
theorem C14_maximum_minimum_ibp (D : PertDomain X ι α) (eps : α) (he : 0 < eps) (R : Set (ι → α))
    (p : ι → α) (hp : p ∈ R) (f0 : Full X ι κ α) (fs : List (Full X ι κ α)) (y0 : κ → α) (ys : List (κ → α))
    (h0 : D.Sound f0.x R) (v0 : Valid .ibp false f0 p y0)
    (h : List.Forall₂ (fun f y => D.Sound f.x R ∧ Valid .ibp false f p y) fs ys) :
    Valid .ibp false (maximumLayerT D .ibp eps f0 fs) p (fun k => (ys.map fun y => y k).foldl max (y0 k)) ∧
    Valid .ibp false (minimumLayerT D .ibp eps f0 fs) p (fun k => (ys.map fun y => y k).foldl min (y0 k)) := by
  have hs : ∀ (l : List (Full X ι κ α)) (a : Full X ι κ α), FoldSliverFree D .ibp eps a l := by
    intro l
    induction l with
    | nil => intro a; trivial
    | cons b t ih => intro a; exact ⟨by simp [SliverFree, getAffine], ih _⟩
  exact ⟨C14_maximum_valid_partial D .ibp eps he R p hp f0 fs y0 ys h0 v0 h (hs _ _),
    C14_minimum_valid_partial D .ibp eps he R p hp f0 fs y0 ys h0 v0 h (hs _ _)⟩

/-- C14: Multiply, any number of inputs. -/
theorem C14_multiply_valid (D : PertDomain X ι α) (m : Mode) (R : Set (ι → α)) (p : ι → α) (hp : p ∈ R)
    (f0 : Full X ι κ α) (fs : List (Full X ι κ α)) (y0 : κ → α) (ys : List (κ → α))
    (h0 : D.Sound f0.x R) (v0 : Valid m false f0 p y0)
    (h : List.Forall₂ (fun f y => D.Sound f.x R ∧ Valid m false f p y) fs ys) :
    Valid m false (multiplyLayerT D m f0 fs) p (fun k => y0 k * (ys.map fun y => y k).prod) :=
  valid_multiplyLayer D m R p hp f0 fs y0 ys h0 v0 h

/-- C14: Concatenate, any number of inputs of any sizes. -/
theorem C14_concat_valid {J : Type*} {κ : J → Type*} (D : PertDomain X ι α) (m : Mode) (j0 : J)
    (fs : (j : J) → Full X ι (κ j) α) (R : Set (ι → α)) (p : ι → α) (hp : p ∈ R) (y : (j : J) → κ j → α)
    (h : ∀ j, D.Sound (fs j).x R) (v : ∀ j, Valid m false (fs j) p (y j)) :
    Valid m false (concatLayerT D m j0 fs) p (fun k => y k.1 k.2) := by
  have a := fun j => (C04_tighten_valid D m false false true (fs j) R (h j) p hp (y j) (v j)).1
  refine ⟨fun hi k => ?_, fun ha k => ?_, by simp⟩
  · simp only [concatLayerT, hi, if_true]; exact (a k.1).const hi k.2
  · simp only [concatLayerT, ha, if_true]; exact (a k.1).aff ha k.2

/-- C62: Dot over the last axes. -/
theorem C62_dot_valid {κ0 κ1 o0 o1 n : Type*} [Fintype n] (D : PertDomain X ι α) (m : Mode)
    (e0 : n × o0 → κ0) (e1 : n × o1 → κ1) (f0 : Full X ι κ0 α) (f1 : Full X ι κ1 α) (R : Set (ι → α))
    (h0 : D.Sound f0.x R) (h1 : D.Sound f1.x R) (p : ι → α) (hp : p ∈ R) (y0 : κ0 → α) (y1 : κ1 → α)
    (v0 : Valid m false f0 p y0) (v1 : Valid m false f1 p y1) :
    Valid m false (dotLayerT D m e0 e1 f0 f1) p (fun o => ∑ t, y0 (e0 (t, o.1)) * y1 (e1 (t, o.2))) := by
  have a := valid_reindex_raw m false (fun q : (o0 × o1) × n => e0 (q.2, q.1.1)) f0 p y0 v0
  have b := valid_reindex_raw m false (fun q : (o0 × o1) × n => e1 (q.2, q.1.2)) f1 p y1 v1
  have c := valid_multiply D m _ _ R (by simpa [Full.reindex] using h0) (by simpa [Full.reindex] using h1) p hp _ _ a b
  exact valid_sum D m (fun q : (o0 × o1) × n => q) _ R (by simpa [multiplyT, Full.reindex] using h0) p hp _ c

/-- C15: fast max pooling. -/
theorem C15_maxpool_fast_valid {o : Type*} (D : PertDomain X ι α) (m : Mode) (win : o → Finset κ)
    (hw : ∀ k, (win k).Nonempty) (f : Full X ι κ α) (R : Set (ι → α)) (hD : D.Sound f.x R)
    (p : ι → α) (hp : p ∈ R) (y : κ → α) (v : Valid m false f p y) (z : o → α)
    (hz : ∀ k, (∃ j ∈ win k, z k = y j) ∧ ∀ j ∈ win k, y j ≤ z k) :
    Valid m false (maxPoolFastT D m win hw f) p z := by
  have hc := tighten_const D m false f R hD p hp y v
  have key : ∀ k, maxPool win hw (f.tighten D m true true).lc k ≤ z k ∧
      z k ≤ maxPool win hw (f.tighten D m true true).uc k := by
    intro k
    obtain ⟨⟨j, hj, e⟩, hle⟩ := hz k
    constructor
    · exact Finset.sup'_le _ _ fun j hj => (hc j).1.trans (hle j hj)
    · rw [e]; exact (hc j).2.trans (Finset.le_sup' _ hj)
  refine ⟨fun hi k => key k, fun ha k => ?_, by simp⟩
  simp only [maxPoolFastT, ha, if_true, zero_mul, affEval_zero_w]
  exact key k

/-- C15: the affine bounds have zero weights and the constants as bias. -/
theorem C15_maxpool_fast_shape {o : Type*} (D : PertDomain X ι α) (m : Mode) (ha : getAffine m = true)
    (win : o → Finset κ) (hw : ∀ k, (win k).Nonempty) (f : Full X ι κ α) (k : o) :
    (∀ i, (maxPoolFastT D m win hw f).wu i k = 0 ∧ (maxPoolFastT D m win hw f).wl i k = 0) ∧
      (maxPoolFastT D m win hw f).bu k = (maxPoolFastT D m win hw f).uc k ∧
      (maxPoolFastT D m win hw f).bl k = (maxPoolFastT D m win hw f).lc k := by
  simp [maxPoolFastT, ha]

end

/-- C12: BatchNormalization in inference, also for negative `gamma`; training raises; so does `dc_decomp`. -/
theorem C12_batchnorm_valid {X ι κ : Type*} [Fintype ι] (D : PertDomain X ι ℝ) (m : Mode)
    (gamma beta mean var : κ → ℝ) (eps : ℝ) (he : 0 < eps) (hv : ∀ k, 0 ≤ var k) (f : Full X ι κ ℝ) (R : Set (ι → ℝ))
    (hD : D.Sound f.x R) (p : ι → ℝ) (hp : p ∈ R) (y : κ → ℝ) (v : Valid m false f p y) :
    Valid m false (batchNormT D m gamma beta mean (fun k => Real.sqrt (var k + eps)) f) p
      (fun k => gamma k * ((y k - mean k) / Real.sqrt (var k + eps)) + beta k) :=
  valid_batchNorm D m gamma beta mean _ (fun k => Real.sqrt_pos.mpr (by have := hv k; linarith)) f R hD p hp y v

/-- C12: in training mode the layer raises. -/
theorem C12_training_raises {β : Type*} (v : β) :
    inferenceOnly true v = .error .notImplemented ∧ inferenceOnly false v = .ok v := by
  simp [inferenceOnly]

theorem reindexT_x {X ι κ κ' α : Type*} [Fintype ι] [Field α] [LinearOrder α] (D : PertDomain X ι α) (m : Mode) (dc : Bool) (e : κ' → κ)
    (f : Full X ι κ α) : (reindexT D m dc e f).x = f.x := by
  cases m <;> rfl

/-- C10: the two outputs `2 x + 1` and `-3 x` of a Dense layer, in every mode. -/
example (m : Mode) (p : Fin 1 → ℚ) (hp : p ∈ Box (fun _ => -1) fun _ => 1) :
    Valid m false (denseT boxDomain m false (fun _ o => ![2, -3] o) ![1, 0] (oneInput (-1) 1)) p fun o => (∑ t, ![2, -3] o * p t) + ![1, 0] o :=
  C10_dense_valid boxDomain m false (fun _ o => ![2, -3] o) ![1, 0] _ _ (oneInput_sound (-1) 1) p hp p (oneInput_valid m _ _ p hp)

/-- The same layer on an input of shape `(1, 1)`. -/
example (m : Mode) (p : Fin 1 → ℚ) (hp : p ∈ Box (fun _ => -1) fun _ => 1) :
    let f := reindexT boxDomain m false (fun k : Fin 1 × Fin 1 => k.2) (oneInput (-1) 1)
    Valid m false (linearLayerT boxDomain m false (denseIndex (Fin 1) (Fin 1) (Fin 2)) (fun k => ![2, -3] k.2) (fun o => ![1, 0] o.2) f) p
      fun o => (∑ t, ![2, -3] o.2 * p t) + ![1, 0] o.2 :=
  C10_dense_any_rank_valid boxDomain m false (fun k => ![2, -3] k.2) ![1, 0] _ _ (by simpa only [reindexT_x] using oneInput_sound (-1) 1) p hp
    (fun k : Fin 1 × Fin 1 => p k.2) (C13_reindex_valid boxDomain m false _ _ _ (oneInput_sound (-1) 1) p hp p (oneInput_valid m _ _ p hp))

/-- Constant bounds of `2 x + 1` on `[-1, 1]` are attained. -/
example : ∃ y : Fin 1 → ℚ, (∀ t, -1 ≤ y t ∧ y t ≤ 1) ∧ (∑ t, 2 * y t) + 1 = 3 := by
  obtain ⟨⟨y, hy, e⟩, _⟩ := C10_dense_ibp_exact boxDomain false (fun (_ : Fin 1) (_ : Fin 1) => (2 : ℚ)) (fun _ => 1) (oneInput (-1) 1) (by decide +kernel) 0
  exact ⟨y, hy, e.trans (by decide +kernel)⟩

/-- C61 is false with a bias: the outputs `2 x + 1` and `x` of a Dense layer and the matrix `C` whose first column is `(1, -1)`: the bounds of
`x + 1` on `[-1, 1]` are said to be `-1` and `1`. -/
theorem C61_dense_back_refuted : ∃ (kernel : Fin 1 → Fin 2 → ℚ) (bias : Fin 2 → ℚ) (back : Fin 2 → Fin 2 → ℚ) (p : Fin 1 → ℚ) (u l : Fin 2 → ℚ),
    Valid .ibp false (oneInput (-1) 1) p p ∧ denseBackT boxDomain .ibp kernel bias back (oneInput (-1) 1) = .ok (u, l) ∧
    u 0 < ∑ o, back o 0 * ((∑ t, kernel t o * p t) + bias o) := by
  refine ⟨fun _ o => ![2, 1] o, ![1, 0], fun o c => ![![1, 0], ![-1, 0]] o c, fun _ => 1, _, _, oneInput_valid .ibp _ _ _ ?_, rfl, by decide +kernel⟩
  exact fun _ => ⟨by norm_num, le_rfl⟩

/-- C61: `set_back_bounds` of a new `DecomonDense` raises, also when it should switch the feature off: `has_backward_bounds` can only be set by
writing the attribute. -/
theorem C61_set_back_bounds_refuted (has : Bool) : newDense.setBackBounds has = .error .attributeError := rfl

/-- C61: the difference of the outputs `2 x + 3` and `x + 3` of a Dense layer, twice (the matrix with rows `(1, 1)` and `(-1, -1)`): the bounds
are those of `x`. -/
example (p : Fin 1 → ℚ) (hp : p ∈ Box (fun _ => -1) fun _ => 1) :
    ∃ u l, denseBackT boxDomain .ibp (fun _ (o : Fin 2) => ![2, 1] o) ![3, 3] (fun o (_ : Fin 2) => ![1, -1] o) (oneInput (-1) 1) = .ok (u, l) ∧
      u 0 = 1 ∧ l 0 = -1 ∧ l 0 ≤ ∑ o, ![1, -1] o * ((∑ t, ![2, 1] o * p t) + ![3, 3] o) ∧ u 0 ≤ 5 - 2 := by
  obtain ⟨u, l, e, h⟩ := (C61_dense_back_valid_partial boxDomain .ibp (fun _ (o : Fin 2) => ![2, 1] o) ![3, 3] (fun o (_ : Fin 2) => ![1, -1] o)
    (oneInput (-1) 1) p p (oneInput_valid .ibp _ _ p hp) (by decide +kernel)).2 rfl
  refine ⟨u, l, e, ?_, ?_, (h 0).1,
    (C61_dense_back_tighter_partial boxDomain _ _ _ (by decide +kernel) (oneInput (-1) 1) (by decide +kernel) u l e 0).1.trans (by decide +kernel)⟩
  · have : u = _ := congrArg Prod.fst (Except.ok.inj e).symm
    rw [this]; decide +kernel
  · have : l = _ := congrArg Prod.snd (Except.ok.inj e).symm
    rw [this]; decide +kernel

/-- The same with the attributes `set_back_bounds` expects. -/
example : ∃ o, (BackBoundsObj.setBackBounds ⟨some "linear", some "linear", false, none, false⟩ true) = .ok o ∧ o.hasBack = true :=
  ⟨_, rfl, rfl⟩

/-- C11: a convolution with a `2 × 2` kernel on an image of one pixel padded by one, in every mode. -/
example (m : Mode) (p : Fin 1 → ℚ) (hp : p ∈ Box (fun _ => -1) fun _ => 1) :
    let f := reindexT boxDomain m false (fun k : Fin 1 × Fin 1 × Fin 1 => k.1) (oneInput (-1) 1)
    Valid m false (linearLayerT boxDomain m false (conv2dIndex 1 1 1 2 2 1 2 2 1 1 1 1 1 1) (fun k => if k.1 = 1 then 3 else -1) (fun _ => 1) f) p
      fun o => (∑ t : Fin 2 × Fin 2 × Fin 1, (if t.1 = 1 then 3 else -1) *
        imageAt (w := 1) (fun k => p k.1) ((o.1.val : ℤ) * 1 + t.1.val * 1 - 1) ((o.2.1.val : ℤ) * 1 + t.2.1.val * 1 - 1) t.2.2) + 1 :=
  C11_conv_valid 1 1 1 2 2 1 2 2 1 1 1 1 1 1 boxDomain m false _ (fun _ => 1) _ _ (by simpa only [reindexT_x] using oneInput_sound (-1) 1) p hp (fun k => p k.1)
    (C13_reindex_valid boxDomain m false _ _ _ (oneInput_sound (-1) 1) p hp p (oneInput_valid m _ _ p hp))

example (m : Mode) (p : Fin 1 → ℚ) (hp : p ∈ Box (fun _ => -1) fun _ => 1) :
    let L := denseIndex (Fin 1) (Fin 1) (Fin 1)
    let f := reindexT boxDomain m false (fun k : Fin 1 × Fin 1 => k.2) (oneInput (-1) 1)
    Valid m false (linearLayerT boxDomain m false L (fun _ => -2) (fun _ => 5) f) p
      fun o => (∑ t, -2 * (match L.src o t with | none => 0 | some s => p s.2)) + 5 :=
  C11_linear_valid boxDomain m false _ _ _ _ _ (by simpa only [reindexT_x] using oneInput_sound (-1) 1) p hp (fun k : Fin 1 × Fin 1 => p k.2)
    (C13_reindex_valid boxDomain m false _ _ _ (oneInput_sound (-1) 1) p hp p (oneInput_valid m _ _ p hp))

/-- C14: the sum, the maximum, the minimum and the product of `x`, `-x` and `x` on `[-1, 1]`, in every mode. -/
example (m : Mode) (p : Fin 1 → ℚ) (hp : p ∈ Box (fun _ => -1) fun _ => 1) :
    let f := oneInput (-1) 1
    let fs := [minusT boxDomain m f, f]
    let ys := [fun k => -p k, p]
    Valid m false (addLayerT boxDomain m f fs) p (fun k => ((p :: ys).map (fun y => y k)).sum) ∧
    Valid m false (maximumLayerT boxDomain m (1 / 10000000) f fs) p (fun k => (ys.map fun y => y k).foldl max (p k)) ∧
    Valid m false (minimumLayerT boxDomain m (1 / 10000000) f fs) p (fun k => (ys.map fun y => y k).foldl min (p k)) ∧
    Valid m false (multiplyLayerT boxDomain m f fs) p (fun k => p k * (ys.map fun y => y k).prod) := by
  intro f fs ys
  have s := oneInput_sound (-1) 1
  have v := oneInput_valid m _ _ p hp
  have h : List.Forall₂ (fun f y => boxDomain.Sound f.x (Box (fun _ => -1) fun _ => 1) ∧ Valid m false f p y) fs ys :=
    .cons ⟨s, C07_minus_valid boxDomain m false _ p p v⟩ (.cons ⟨s, v⟩ .nil)
  refine ⟨C14_add_valid boxDomain m f fs _ p hp p ys s v h,
    C14_maximum_valid_partial boxDomain m _ (by norm_num) _ p hp f fs p ys s v h ?_,
    C14_minimum_valid_partial boxDomain m _ (by norm_num) _ p hp f fs p ys s v h ?_,
    C14_multiply_valid boxDomain m _ p hp f fs p ys s v h⟩
  · simp only [fs, f, FoldSliverFree, SliverFree]; cases m <;> decide +kernel
  · simp only [fs, f, FoldSliverFree, SliverFree, List.map]; cases m <;> decide +kernel

/-- The maximum and the minimum with constant bounds, on an interval narrower than epsilon. -/
example (p : Fin 1 → ℚ) (hp : p ∈ Box (fun _ => -(1 / 100)) fun _ => 1 / 100) :
    let f := oneInput (-(1 / 100)) (1 / 100)
    Valid .ibp false (maximumLayerT boxDomain .ibp (1 / 10) f [f, f]) p fun k => ([p, p].map fun y => y k).foldl max (p k) :=
  have s := oneInput_sound (-(1 / 100)) (1 / 100)
  have v := oneInput_valid .ibp _ _ p hp
  (C14_maximum_minimum_ibp boxDomain _ (by norm_num) _ p hp _ [_, _] p [p, p] s v (.cons ⟨s, v⟩ (.cons ⟨s, v⟩ .nil))).1

/-- Subtract with two inputs, with three inputs and with `dc_decomp`. -/
example (m : Mode) (p : Fin 1 → ℚ) (hp : p ∈ Box (fun _ => -1) fun _ => 1) :
    let f := oneInput (-1) 1
    (∃ r, subtractLayerT boxDomain m false [f, f] = .ok r ∧ Valid m false r p fun k => p k - p k) ∧
      subtractLayerT boxDomain m false [f, f, f] = .error .valueError ∧ subtractLayerT boxDomain m true [f, f] = .error .notImplemented :=
  have s := oneInput_sound (-1) 1
  have v := oneInput_valid m _ _ p hp
  ⟨(C14_subtract_valid boxDomain m _ _ p hp).1 _ _ p p rfl s s v v, (C14_subtract_valid boxDomain m _ _ p hp).2.1 (by simp),
    (C14_subtract_valid boxDomain m _ _ p hp).2.2⟩

/-- Concatenation of `x` and `-x`. -/
example (m : Mode) (p : Fin 1 → ℚ) (hp : p ∈ Box (fun _ => -1) fun _ => 1) :
    let f := oneInput (-1) 1
    Valid m false (concatLayerT boxDomain m true fun j : Bool => if j then f else minusT boxDomain m f) p
      fun k => (if k.1 then p else fun i => -p i) k.2 :=
  have v := oneInput_valid m _ _ p hp
  C14_concat_valid boxDomain m true _ _ p hp (fun j => if j then p else fun i => -p i) (fun j => by cases j <;> exact oneInput_sound (-1) 1)
    fun j => by cases j; exact C07_minus_valid boxDomain m false _ p p v; exact v

/-- C62: the dot product of `(x)` with itself. -/
example (m : Mode) (p : Fin 1 → ℚ) (hp : p ∈ Box (fun _ => -1) fun _ => 1) :
    Valid m false (dotLayerT boxDomain m (fun k : Fin 1 × Unit => k.1) (fun k : Fin 1 × Unit => k.1) (oneInput (-1) 1) (oneInput (-1) 1)) p
      fun _ => ∑ t, p t * p t :=
  have v := oneInput_valid m _ _ p hp
  C62_dot_valid boxDomain m _ _ _ _ _ (oneInput_sound (-1) 1) (oneInput_sound (-1) 1) p hp p p v v

/-- C12: the function `2 (x - 1) / sqrt (3 + 1) + 1` of a BatchNormalization layer. -/
example (m : Mode) (p : Fin 1 → ℝ) (hp : p ∈ Box (fun _ => -1) fun _ => 1)
    (f : Full ((Fin 1 → ℝ) × (Fin 1 → ℝ)) (Fin 1) (Fin 1) ℝ) (hx : f.x = (fun _ => -1, fun _ => 1)) (v : Valid m false f p p) :
    Valid m false (batchNormT boxDomain m (fun _ => 2) (fun _ => 1) (fun _ => 1) (fun _ => Real.sqrt (3 + 1)) f) p
      fun k => 2 * ((p k - 1) / Real.sqrt (3 + 1)) + 1 :=
  C12_batchnorm_valid boxDomain m (fun _ => 2) (fun _ => 1) (fun _ => 1) (fun _ => 3) 1 one_pos (by simp) f _
    (by rw [hx]; exact boxDomain_sound _ _) p hp p v

/-! ### Concrete instances -/

/-- C10, C14, C15: `y = 2x - (-3)x`-like layer on `[-1,1]`, hybrid mode: the hypotheses hold and the layer maps `x` to
`(2x+1, -3x)`; bounds are `[-1,3]` and `[-3,3]`. -/
example :
    let f := oneInput (-1) 1
    let r := denseT boxDomain .hybrid false (fun _ (o : Fin 2) => if o = 0 then (2 : ℚ) else -3)
      (fun o => if o = 0 then 1 else 0) f
    (r.lc 0, r.uc 0, r.lc 1, r.uc 1) = (-1, 3, -3, 3) ∧
      (boxDomain : PertDomain _ (Fin 1) ℚ).Sound f.x (Box (fun _ => -1) (fun _ => 1)) := by
  refine ⟨?_, boxDomain_sound _ _⟩
  simp [denseT, oneInput, Full.tighten, boxDomain, getUpperBox, getLowerBox, getIbp]
  norm_num

/-- C11: a `2×2` kernel of ones, stride 1, padding 1 before, on a `1×1` image with value 5: output `(0,0)` sees the image at
kernel position `(1,1)`. -/
example : (conv2dIndex 1 1 1 2 2 1 2 2 1 1 1 1 1 1).apply
    (fun k => if k.1 = 1 ∧ k.2.1 = 1 then (3 : ℚ) else 1) (fun _ => 5) (0, 0, 0) = 15 := by
  decide +kernel

/-- C14: the hypotheses of the n-ary theorems are met by three copies of the identity on `[-1,1]`. -/
example (p : Fin 1 → ℚ) (hp : p ∈ Box (fun _ : Fin 1 => (-1 : ℚ)) (fun _ => 1)) :
    Valid .hybrid false (averageLayerT boxDomain .hybrid (oneInput (-1) 1) [oneInput (-1) 1, oneInput (-1) 1]) p
      (fun k => ([p, p, p].map fun y => y k).sum / 3) := by
  have v := oneInput_valid .hybrid (-1) 1 p hp
  have := C14_average_valid boxDomain .hybrid (oneInput (-1) 1) [oneInput (-1) 1, oneInput (-1) 1] _ p hp p [p, p]
    (boxDomain_sound _ _) v (.cons ⟨boxDomain_sound _ _, v⟩ (.cons ⟨boxDomain_sound _ _, v⟩ .nil))
  simpa using this

/-- C15: one window with the single entry. -/
example (p : Fin 1 → ℚ) (hp : p ∈ Box (fun _ : Fin 1 => (-1 : ℚ)) (fun _ => 1)) :
    Valid .affine false (maxPoolFastT boxDomain .affine (fun _ : Fin 1 => {0}) (fun _ => ⟨0, by simp⟩) (oneInput (-1) 1)) p
      (fun _ => p 0) :=
  C15_maxpool_fast_valid boxDomain .affine _ _ _ _ (boxDomain_sound _ _) p hp p (oneInput_valid .affine (-1) 1 p hp) _
    fun _ => ⟨⟨0, by simp, rfl⟩, fun j hj => by simp at hj; rw [hj]⟩

end Decomon
