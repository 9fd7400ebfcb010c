import Verif.Lemmas.FoldCrown
import Verif.Props.Network

/-!
C120: folding `BatchNormalization` into its neighbour and merging consecutive linear layers.
-/

namespace Decomon

section Domains
variable {ι : Type} [Fintype ι] [Nonempty ι]

theorem ball_scales (eps : ℝ) {p : PVal} (hp : p = .fin 1 ∨ p = .fin 2 ∨ p = .inf) (x : ι → ℝ) : (ballDomain eps p).Scales x := by
  have main : ∀ N : (ι → ℝ) → ℝ, (∀ c w, N (fun i => c * w i) = |c| * N w) → ∀ (c d : ℝ) (w : ι → ℝ) (b : ℝ),
      (0 ≤ c → (∑ i, c * w i * x i) + (eps * N (fun i => c * w i) + (c * b + d)) = c * ((∑ i, w i * x i) + (eps * N w + b)) + d ∧
        (∑ i, c * w i * x i) + (-eps * N (fun i => c * w i) + (c * b + d)) = c * ((∑ i, w i * x i) + (-eps * N w + b)) + d) ∧
      (c ≤ 0 → (∑ i, c * w i * x i) + (eps * N (fun i => c * w i) + (c * b + d)) = c * ((∑ i, w i * x i) + (-eps * N w + b)) + d ∧
        (∑ i, c * w i * x i) + (-eps * N (fun i => c * w i) + (c * b + d)) = c * ((∑ i, w i * x i) + (eps * N w + b)) + d) := by
    intro N hN c d w b
    have e : ∑ i, c * w i * x i = c * ∑ i, w i * x i := by rw [Finset.mul_sum]; exact Finset.sum_congr rfl fun i _ => mul_assoc _ _ _
    rw [hN, e]
    refine ⟨fun hc => ?_, fun hc => ?_⟩
    · rw [abs_of_nonneg hc]; constructor <;> ring
    · rw [abs_of_nonpos hc]; constructor <;> ring
  rcases hp with rfl | rfl | rfl
  · have hN : ∀ (c : ℝ) (w : ι → ℝ), maxOver (fun i => |c * w i|) = |c| * maxOver fun i => |w i| := by
      intro c w
      apply le_antisymm
      · refine Finset.sup'_le _ _ fun i hi => ?_
        rw [abs_mul]
        exact mul_le_mul_of_nonneg_left (Finset.le_sup' (fun i => |w i|) hi) (abs_nonneg c)
      · obtain ⟨i, hi, h⟩ := Finset.exists_mem_eq_sup' (Finset.univ_nonempty (α := ι)) fun i => |w i|
        rw [maxOver, h, ← abs_mul]
        exact Finset.le_sup' (fun i => |c * w i|) hi
    exact main (fun w => maxOver fun i => |w i|) hN
  · have hN : ∀ (c : ℝ) (w : ι → ℝ), Real.sqrt (∑ i, (c * w i) ^ 2) = |c| * Real.sqrt (∑ i, w i ^ 2) := by
      intro c w
      simp only [mul_pow]
      rw [← Finset.mul_sum, Real.sqrt_mul (sq_nonneg c), Real.sqrt_sq_eq_abs]
    have e : ∀ w b, (ballDomain eps (.fin 2)).getUpper x w b = (∑ i, w i * x i) + (eps * Real.sqrt (∑ i, w i ^ 2) + b) ∧
        (ballDomain eps (.fin 2)).getLower x w b = (∑ i, w i * x i) + (-eps * Real.sqrt (∑ i, w i ^ 2) + b) := fun w b => by
      simp [ballDomain, getUpperBall, getLowerBall, getLqNorm, Except.toOption, bind, Except.bind, pure, Except.pure]
    intro c d w b
    simp only [fun w b => (e w b).1, fun w b => (e w b).2]
    exact main (fun w => Real.sqrt (∑ i, w i ^ 2)) hN c d w b
  · exact box_scales (fun i => x i - eps, fun i => x i + eps)

end Domains

section
variable {X ι κ α : Type} [Field α] [LinearOrder α] [IsStrictOrderedRing α]

/-- **C120 (sanity).** The merged network computes the same function. -/
theorem C120_eval {one : Prop} {n n' : Net α ι κ} (h : Net.Collapse one n n') (p : ι → α) : n'.eval p = n.eval p := collapse_eval h p

theorem same_convert {D : PertDomain X ι α} {m : Mode} (mf : Mode) (hm : m = .ibp → mf = .ibp) {f g : Full X ι κ α} (h : SameInfo D m f g) :
    convert2Mode D m mf f = convert2Mode D m mf g := by
  have ht := h.tight
  have hx := sameInfo_x h
  cases m with
  | ibp =>
    obtain rfl := hm rfl
    have h1 : f.uc = g.uc := h.uc rfl
    have h2 : f.lc = g.lc := h.lc rfl
    simp [convert2Mode, Full.tighten, getIbp, getAffine, h1, h2, hx]
  | affine =>
    have h1 : f.wu = g.wu := h.wu rfl
    have h2 : f.bu = g.bu := h.bu rfl
    have h3 : f.wl = g.wl := h.wl rfl
    have h4 : f.bl = g.bl := h.bl rfl
    cases mf <;> simp [convert2Mode, Full.tighten, getIbp, getAffine, h1, h2, h3, h4, hx]
  | hybrid =>
    have h1 : f.wu = g.wu := h.wu rfl
    have h2 : f.bu = g.bu := h.bu rfl
    have h3 : f.wl = g.wl := h.wl rfl
    have h4 : f.bl = g.bl := h.bl rfl
    have h5 := h.uc rfl
    have h6 := h.lc rfl
    simp [Full.tighten, h1, h2, h3, h4, hx] at h5 h6
    cases mf with
    | ibp => simp [convert2Mode, Full.tighten, getIbp, getAffine, h1, h2, h3, h4, h5, h6, hx]
    | affine => simp [convert2Mode, Full.tighten, getIbp, getAffine, h1, h2, h3, h4, hx]
    | hybrid => simp [convert2Mode, Full.tighten, getIbp, getAffine, h1, h2, h3, h4, h5, h6, hx]

variable [Fintype ι] [DecidableEq ι]

/-- **C120 (folding, forward methods).** Merging linear layers of which one gives outputs that depend on one input each
(`BatchNormalization`, `Flatten`, `Reshape`, `Dropout`, `Activation("linear")` next to any linear layer) leaves all the tensors returned
unchanged, over every box, in every mode and for every network of the layers modelled. -/
theorem C120_forward {n n' : Net α ι κ} (h : Net.Collapse True n n') (xmin xmax : ι → α) (m mf : Mode) (hm : m = .ibp → mf = .ibp) (eps : α)
    (slope : Slope) :
    convert2Mode boxDomain m mf (n'.forward boxDomain m eps slope (inputTensorsBox m xmin xmax)) =
      convert2Mode boxDomain m mf (n.forward boxDomain m eps slope (inputTensorsBox m xmin xmax)) :=
  (same_convert mf hm (collapse_same eps slope _ (box_scales _) h)).symm

/-- **C120 (folding, backward methods).** The same for `crown-forward-*`, with the exceptions (both conversions raise the same one, or
none), for a conversion with or without `back_bounds`. -/
theorem C120_crown_forward {n n' : Net α ι κ} (h : Net.Collapse True n n') (xmin xmax : ι → α) (m : Mode) (eps : α) (slope : Slope) (fwd : Bool) :
    (boxCrown m eps slope fwd xmin xmax).model n' = (boxCrown m eps slope fwd xmin xmax).model n ∧
      ∀ (ν : Type) (C : κ → ν → α), (boxCrown m eps slope fwd xmin xmax).modelBack n' C = (boxCrown m eps slope fwd xmin xmax).modelBack n C := by
  have hn := collapse_node (boxCrown m eps slope fwd xmin xmax) (fun _ => ⟨trivial, box_scales _⟩) h
  simp only [CrownCfg.model, CrownCfg.modelBack, hn, implies_true, and_self]

/-- **C120 (any merging, crown).** The method `crown` does not see how linear layers are grouped: for all merged networks, over all domains
and in all modes, the tensors returned and the exceptions are the same. -/
theorem C120_crown {one : Prop} {n n' : Net α ι κ} (h : Net.Collapse one n n') (c : CrownCfg X ι α) (hc : c.useForward = false) :
    c.model n' = c.model n ∧ ∀ (ν : Type) (C : κ → ν → α), c.modelBack n' C = c.modelBack n C := by
  have hn := collapse_node c (one := one) (fun h => by rw [hc] at h; cases h) h
  simp only [CrownCfg.model, CrownCfg.modelBack, hn, implies_true, and_self]

/-- **C120 (any merging, forward-ibp).** The intervals of `forward-ibp` can only shrink when linear layers are merged. -/
theorem C120_ibp {one : Prop} {n n' : Net α ι κ} (h : Net.Collapse one n n') (hn : n.WF) (xmin xmax : ι → α) (hx : ∀ i, xmin i ≤ xmax i) (eps : α)
    (he : 0 < eps) (slope : Slope) (k : κ) :
    (n.forward boxDomain .ibp eps slope (inputTensorsBox .ibp xmin xmax)).lc k ≤
        (n'.forward boxDomain .ibp eps slope (inputTensorsBox .ibp xmin xmax)).lc k ∧
      (n'.forward boxDomain .ibp eps slope (inputTensorsBox .ibp xmin xmax)).uc k ≤
        (n.forward boxDomain .ibp eps slope (inputTensorsBox .ibp xmin xmax)).uc k :=
  collapse_tighter eps he slope _ (Box xmin xmax) (boxDomain_sound xmin xmax) xmin (fun i => ⟨le_rfl, hx i⟩)
    (C27_input_box .ibp xmin xmax xmin fun i => ⟨le_rfl, hx i⟩) h hn k

/-! ### The usual foldings -/

section Folding
variable {κ μ : Type} [Fintype κ] [DecidableEq κ] [Fintype μ] [DecidableEq μ]

omit [Fintype ι] [DecidableEq ι] in
/-- The outputs of `BatchNormalization` depend on one input each, which is not shared. -/
theorem batchNorm_one (g b mu sd : κ → α) : (Lay.batchNorm g b mu sd).OneInput ∧ (Lay.batchNorm g b mu sd).OneOutput := by
  constructor
  · intro k i i' h h'
    rw [coef_batchNorm] at h h'
    by_contra hne
    by_cases h1 : i = k
    · exact h' (if_neg fun h2 => hne (h1.trans h2.symm))
    · exact h (if_neg h1)
  · intro i k k' h h'
    rw [coef_batchNorm] at h h'
    by_contra hne
    by_cases h1 : i = k
    · exact h' (if_neg fun h2 => hne (h1.symm.trans h2))
    · exact h (if_neg h1)

omit [Fintype ι] [DecidableEq ι] in
/-- **C120 (`Dense` then `BatchNormalization`).** The pair is the `Dense` layer whose kernel columns are scaled by `gamma / sd`. -/
theorem C120_dense_batchNorm (n : Net α ι κ) (K : κ → μ → α) (b : μ → α) (g be mu sd : μ → α) (hsd : ∀ k, 0 < sd k) :
    Net.Collapse True (.layer (.layer n (.dense K b)) (.batchNorm g be mu sd))
      (.layer n (.dense (fun i k => K i k * (g k / sd k)) fun k => (b k - mu k) * (g k / sd k) + be k)) := by
  refine .two n _ _ _ trivial hsd trivial (fun y => ?_) fun _ => .inr (batchNorm_one g be mu sd).1
  funext k
  simp only [Lay.eval]
  have : ∑ t, K t k * (g k / sd k) * y t = (g k / sd k) * ∑ t, K t k * y t := by
    rw [Finset.mul_sum]; exact Finset.sum_congr rfl fun t _ => by ring
  rw [this]; ring

omit [Fintype ι] [DecidableEq ι] in
/-- **C120 (`BatchNormalization` then `Dense`).** -/
theorem C120_batchNorm_dense (n : Net α ι κ) (g be mu sd : κ → α) (hsd : ∀ k, 0 < sd k) (K : κ → μ → α) (b : μ → α) :
    Net.Collapse True (.layer (.layer n (.batchNorm g be mu sd)) (.dense K b))
      (.layer n (.dense (fun i k => (g i / sd i) * K i k) fun k => ∑ i, K i k * (be i - mu i * (g i / sd i)) + b k)) := by
  refine .two n _ _ _ hsd trivial trivial (fun y => ?_) fun _ => .inl (batchNorm_one g be mu sd)
  funext k
  simp only [Lay.eval]
  rw [← add_assoc, ← Finset.sum_add_distrib]
  congr 1
  exact Finset.sum_congr rfl fun t _ => by ring

omit [Fintype ι] [DecidableEq ι] [IsStrictOrderedRing α] in
/-- No input entry of a convolution with positive dilations meets two taps of the same output. -/
theorem conv_plain {h w cin kh kw cout oh ow s0 s1 d0 d1 p0 p1 : ℕ} (hd0 : 0 < d0) (hd1 : 0 < d1) (K : Fin kh × Fin kw × Fin cin × Fin cout → α)
    (b : Fin oh × Fin ow × Fin cout → α) : (Lay.linear (conv2dIndex h w cin kh kw cout oh ow s0 s1 d0 d1 p0 p1) K b).Plain := by
  have hsrc : ∀ (r c : ℕ) (ch : Fin cin) (s : Fin h × Fin w × Fin cin), paddedSrc p0 p1 r c ch = some s → r = s.1.val + p0 ∧ c = s.2.1.val + p1 ∧ ch = s.2.2 := by
    intro r c ch s hs
    unfold paddedSrc at hs
    split_ifs at hs with hr hc
    obtain rfl := Option.some.inj hs
    exact ⟨by simp only; omega, by simp only; omega, rfl⟩
  rintro o ⟨t1, t2, t3⟩ ⟨t1', t2', t3'⟩ s hs hs'
  obtain ⟨h1, h2, h3⟩ := hsrc _ _ _ _ hs
  obtain ⟨h1', h2', h3'⟩ := hsrc _ _ _ _ hs'
  have e1 : t1.val * d0 = t1'.val * d0 := by simp only at h1 h1'; omega
  have e2 : t2.val * d1 = t2'.val * d1 := by simp only at h2 h2'; omega
  have e1 := Fin.ext (Nat.eq_of_mul_eq_mul_right hd0 e1)
  have e2 := Fin.ext (Nat.eq_of_mul_eq_mul_right hd1 e2)
  simp only at h3 h3'
  rw [e1, e2, h3, h3']

omit [Fintype ι] [DecidableEq ι] in
/-- **C120 (`Conv2D` then `BatchNormalization`).** The normalisation of each channel goes into the kernel. -/
theorem C120_conv_batchNorm {h w cin kh kw cout oh ow s0 s1 d0 d1 p0 p1 : ℕ} (hd0 : 0 < d0) (hd1 : 0 < d1)
    (n : Net α ι (Fin h × Fin w × Fin cin)) (K : Fin kh × Fin kw × Fin cin × Fin cout → α) (b g be mu sd : Fin cout → α) (hsd : ∀ k, 0 < sd k) :
    Net.Collapse True
      (.layer (.layer n (.linear (conv2dIndex h w cin kh kw cout oh ow s0 s1 d0 d1 p0 p1) K fun o => b o.2.2))
        (.batchNorm (fun o => g o.2.2) (fun o => be o.2.2) (fun o => mu o.2.2) fun o => sd o.2.2))
      (.layer n (.linear (conv2dIndex h w cin kh kw cout oh ow s0 s1 d0 d1 p0 p1) (fun q => K q * (g q.2.2.2 / sd q.2.2.2))
        fun o => (b o.2.2 - mu o.2.2) * (g o.2.2 / sd o.2.2) + be o.2.2)) := by
  refine .two n _ _ _ (conv_plain hd0 hd1 _ _) (fun k => hsd _) (conv_plain hd0 hd1 _ _) (fun y => ?_) fun _ => .inr (batchNorm_one _ _ _ _).1
  funext o
  simp only [Lay.eval]
  have : ∀ v : Fin kh × Fin kw × Fin cin → α, ∑ t, K ((conv2dIndex h w cin kh kw cout oh ow s0 s1 d0 d1 p0 p1).kidx o t) * (g o.2.2 / sd o.2.2) * v t =
      (g o.2.2 / sd o.2.2) * ∑ t, K ((conv2dIndex h w cin kh kw cout oh ow s0 s1 d0 d1 p0 p1).kidx o t) * v t := fun v => by
    rw [Finset.mul_sum]; exact Finset.sum_congr rfl fun t _ => by ring
  have h2 : ∀ t, ((conv2dIndex h w cin kh kw cout oh ow s0 s1 d0 d1 p0 p1).kidx o t).2.2.2 = o.2.2 := fun t => rfl
  simp only [h2]
  rw [this]; ring

omit [Fintype ι] [DecidableEq ι] [IsStrictOrderedRing α] in
/-- **C120 (`Dropout`, `Activation("linear")`).** -/
theorem C120_skip (n : Net α ι κ) : Net.Collapse True (.layer n .skip) n := .drop n _ trivial fun _ => rfl

end Folding

end

/-! ### Balls -/

/-- **C120 (folding, forward methods, balls).** -/
theorem C120_forward_ball {ι κ : Type} [Fintype ι] [DecidableEq ι] [Nonempty ι] {n n' : Net ℝ ι κ} (h : Net.Collapse True n n') (r : ℝ) {p : PVal}
    (hp : p = .fin 1 ∨ p = .fin 2 ∨ p = .inf) (z : ι → ℝ) (m mf : Mode) (hm : m = .ibp → mf = .ibp) (eps : ℝ) (slope : Slope) :
    convert2Mode (ballDomain r p) m mf (n'.forward (ballDomain r p) m eps slope (inputTensorsBall m r p z)) =
      convert2Mode (ballDomain r p) m mf (n.forward (ballDomain r p) m eps slope (inputTensorsBall m r p z)) :=
  (same_convert mf hm (collapse_same eps slope _ (ball_scales r hp _) h)).symm

/-! ### Witnesses -/

/-- `x`, copied, and the difference of the copies. -/
def copyNet : Net ℚ (Fin 1) (Fin 1) := .layer (.layer .input (.dense (fun _ _ => 1) fun _ : Fin 2 => 0)) (.dense (fun i _ => if i = 0 then 1 else -1) fun _ => 0)

/-- The two layers of `copyNet` in one. -/
def copyNet' : Net ℚ (Fin 1) (Fin 1) := .layer .input (.dense (fun _ _ => 0) fun _ => 0)

theorem copyNet_collapse : Net.Collapse False copyNet copyNet' := by
  refine .two .input _ _ _ trivial trivial trivial (fun y => ?_) (fun h => h.elim)
  funext k
  simp [Lay.eval, Fin.sum_univ_two]

/-- **C120 (two dense layers).** The intervals of `forward-ibp` can strictly shrink when two `Dense` layers are merged; the bounds of `crown`
do not change (`C120_crown`). -/
theorem C120_dense_refuted :
    ¬ ∀ (n n' : Net ℚ (Fin 1) (Fin 1)), Net.Collapse False n n' → ∀ xmin xmax : Fin 1 → ℚ,
      (n'.forward boxDomain .ibp (1/10000000) .vSlope (inputTensorsBox .ibp xmin xmax)).uc 0 =
        (n.forward boxDomain .ibp (1/10000000) .vSlope (inputTensorsBox .ibp xmin xmax)).uc 0 := by
  intro h
  exact absurd (h copyNet copyNet' copyNet_collapse (fun _ => -1) (fun _ => 1)) (by decide +kernel)

/-- `relu(2 y - y - 1/4)` with `y = relu(x)`, the two terms being taken from two copies of `y`. -/
def flipNet : Net ℚ (Fin 1) (Fin 1) :=
  .layer (.layer (.layer (.layer .input (.relu (fun _ => 1) fun _ => 1)) (.dense (fun _ _ => 1) fun _ : Fin 2 => 0))
    (.dense (fun i _ => if i = 0 then 2 else -1) fun _ => -(1/4))) (.relu (fun _ => 1) fun _ => 1)

/-- `flipNet` with its two dense layers in one. -/
def flipNet' : Net ℚ (Fin 1) (Fin 1) :=
  .layer (.layer (.layer .input (.relu (fun _ => 1) fun _ => 1)) (.dense (fun _ _ => 1) fun _ => -(1/4))) (.relu (fun _ => 1) fun _ => 1)

theorem flipNet_collapse : Net.Collapse False flipNet flipNet' := by
  unfold flipNet flipNet'
  refine Net.Collapse.layer ?_ _
  apply Net.Collapse.two
  · trivial
  · trivial
  · trivial
  · intro y
    funext k
    simp [Lay.eval, Fin.sum_univ_two]
    ring
  · exact fun h => h.elim

/-- **C120 (two dense layers, affine bounds).** In affine mode merging two `Dense` layers can loosen the bounds: the smaller interval found
for the last ReLU changes the slope of its lower bound, and the network is bounded below by `-5/4` instead of `0`. -/
theorem C120_affine_refuted :
    ¬ ∀ (n n' : Net ℚ (Fin 1) (Fin 1)), Net.Collapse False n n' → n.WF → ∀ xmin xmax : Fin 1 → ℚ, (∀ i, xmin i ≤ xmax i) →
      (convert2Mode boxDomain .affine .ibp (n.forward boxDomain .affine (1/10000000) .vSlope (inputTensorsBox .affine xmin xmax))).lc 0 ≤
        (convert2Mode boxDomain .affine .ibp (n'.forward boxDomain .affine (1/10000000) .vSlope (inputTensorsBox .affine xmin xmax))).lc 0 := by
  intro h
  refine absurd (h flipNet flipNet' flipNet_collapse ?_ (fun _ => -1) (fun _ => 2) fun _ => by norm_num) ?_
  · exact ⟨⟨⟨⟨trivial, fun _ => by norm_num⟩, trivial⟩, trivial⟩, fun _ => by norm_num⟩
  · decide +kernel

/-- **C120 (two dense layers, `crown-forward-ibp`).** These bounds change too: the ReLU behind the two layers is relaxed over the interval
of the forward pass. -/
theorem C120_crown_forward_refuted :
    ¬ ∀ (n n' : Net ℚ (Fin 1) (Fin 1)), Net.Collapse False n n' → ∀ xmin xmax : Fin 1 → ℚ,
      ((boxCrown .ibp (1/10000000) .vSlope true xmin xmax).model n').toOption.map (fun f => f.uc 0) =
        ((boxCrown .ibp (1/10000000) .vSlope true xmin xmax).model n).toOption.map fun f => f.uc 0 := by
  intro h
  exact absurd (h (.layer copyNet (.relu (fun _ => 1) fun _ => 1)) (.layer copyNet' (.relu (fun _ => 1) fun _ => 1))
    (.layer copyNet_collapse _) (fun _ => -1) (fun _ => 1)) (by decide +kernel)

/-! ### Examples -/

/-- `relu` of a `Dense` layer followed by `BatchNormalization`, and a last `Dense` layer behind a `Dropout`. -/
def normNet : Net ℚ (Fin 2) (Fin 1) :=
  .layer (.layer (.layer (.layer (.layer .input (.dense (fun i k => if i = k then 2 else -1) fun _ : Fin 2 => 1))
    (.batchNorm (fun _ => -3) (fun _ => 1) (fun _ => 2) fun _ => 2)) (.relu (fun _ => 1) fun _ => 1)) .skip) (.dense (fun i _ => if i = 0 then 1 else -1) fun _ => 0)

/-- The same function with the normalisation folded and the dropout removed. -/
def normNet' : Net ℚ (Fin 2) (Fin 1) :=
  .layer (.layer (.layer .input (.dense (fun i k => (if i = k then 2 else -1) * (-3 / 2)) fun _ : Fin 2 => (1 - 2) * (-3 / 2) + 1))
    (.relu (fun _ => 1) fun _ => 1)) (.dense (fun i _ => if i = 0 then 1 else -1) fun _ => 0)

theorem normNet_collapse : Net.Collapse True normNet normNet' := by
  unfold normNet normNet'
  exact .layer (.trans (C120_skip _) (.layer (C120_dense_batchNorm .input _ _ _ _ _ _ fun _ => by norm_num) _)) _

/-- `C120_forward` and `C120_crown_forward` on this network, in hybrid mode: the bounds are those of the theorem, and are not trivial. -/
example :
    (convert2Mode boxDomain .hybrid .hybrid (normNet'.forward boxDomain .hybrid (1/10000000) .vSlope (inputTensorsBox .hybrid (fun _ => -1) fun _ => 1)) =
      convert2Mode boxDomain .hybrid .hybrid (normNet.forward boxDomain .hybrid (1/10000000) .vSlope (inputTensorsBox .hybrid (fun _ => -1) fun _ => 1))) ∧
    ((boxCrown .hybrid (1/10000000) .vSlope true (fun _ => -1) fun _ => 1).model normNet' =
      (boxCrown .hybrid (1/10000000) .vSlope true (fun _ => -1) fun _ => 1).model normNet) ∧
    (normNet.forward boxDomain .hybrid (1/10000000) .vSlope (inputTensorsBox .hybrid (fun _ => -1) fun _ => 1)).uc 0 = 7 :=
  ⟨C120_forward normNet_collapse _ _ _ _ (by simp) _ _, (C120_crown_forward normNet_collapse _ _ _ _ _ _).1, by decide +kernel⟩

/-- `C120_ibp` is strict on `copyNet`, and `C120_crown` gives the exact bound 0 in both cases. -/
example :
    (copyNet'.forward boxDomain .ibp (1/10000000) .vSlope (inputTensorsBox .ibp (fun _ => -1) fun _ => 1)).uc 0 <
      (copyNet.forward boxDomain .ibp (1/10000000) .vSlope (inputTensorsBox .ibp (fun _ => -1) fun _ => 1)).uc 0 ∧
    ((boxCrown .ibp (1/10000000) .vSlope false (fun _ => -1) fun _ => 1).model copyNet).toOption.map (fun f => f.uc 0) = some 0 ∧
    (boxCrown .ibp (1/10000000) .vSlope false (fun _ => -1) fun _ => (1 : ℚ)).model copyNet' =
      (boxCrown .ibp (1/10000000) .vSlope false (fun _ => -1) fun _ => 1).model copyNet :=
  ⟨by decide +kernel, by decide +kernel, (C120_crown copyNet_collapse _ rfl).1⟩

/-- The hypotheses of `C120_ibp` hold for `flipNet`. -/
example : (flipNet'.forward boxDomain .ibp (1/10000000) .vSlope (inputTensorsBox .ibp (fun _ => -1) fun _ => 2)).uc 0 ≤
    (flipNet.forward boxDomain .ibp (1/10000000) .vSlope (inputTensorsBox .ibp (fun _ => -1) fun _ => 2)).uc 0 :=
  (C120_ibp flipNet_collapse ⟨⟨⟨⟨trivial, fun _ => by norm_num⟩, trivial⟩, trivial⟩, fun _ => by norm_num⟩ _ _ (fun _ => by norm_num) _
    (by norm_num) _ _).2

/-- `C120_forward_ball` on a `Dense` layer with normalisation over a Euclidean ball, and `C120_conv_batchNorm` on a 3 × 3 image. -/
example : convert2Mode (ballDomain 1 (.fin 2)) .hybrid .hybrid
      ((Net.layer .input (.dense (fun i k : Fin 2 => (if i = k then (2 : ℝ) else -1) * (-3 / 2)) fun _ => (1 - 2) * (-3 / 2) + 1)).forward
        (ballDomain 1 (.fin 2)) .hybrid (1/10000000) .vSlope (inputTensorsBall .hybrid 1 (.fin 2) fun _ => 0)) =
    convert2Mode (ballDomain 1 (.fin 2)) .hybrid .hybrid
      ((Net.layer (.layer .input (.dense (fun i k : Fin 2 => if i = k then (2 : ℝ) else -1) fun _ => 1)) (.batchNorm (fun _ => -3) (fun _ => 1) (fun _ => 2)
        fun _ => 2)).forward (ballDomain 1 (.fin 2)) .hybrid (1/10000000) .vSlope (inputTensorsBall .hybrid 1 (.fin 2) fun _ => 0)) :=
  C120_forward_ball (C120_dense_batchNorm .input _ _ _ _ _ _ fun _ => by norm_num) 1 (.inr (.inl rfl)) _ _ _ (by simp) _ _

example : Net.Collapse True
    (.layer (.layer .input (.linear (conv2dIndex 3 3 1 2 2 1 2 2 1 1 1 1 0 0) (fun _ => (1 : ℚ)) fun _ => 0)) (.batchNorm (fun _ => 3) (fun _ => 1) (fun _ => 2)
      fun _ => 2))
    (.layer .input (.linear (conv2dIndex 3 3 1 2 2 1 2 2 1 1 1 1 0 0) (fun _ => (1 : ℚ) * (3 / 2)) fun _ => (0 - 2) * (3 / 2) + 1)) :=
  C120_conv_batchNorm (by decide) (by decide) .input (fun _ => 1) (fun _ => 0) (fun _ => 3) (fun _ => 1) (fun _ => 2) (fun _ => 2) fun _ => by norm_num

end Decomon
