import Verif.SpecBack
import Verif.Lemmas.Exact
import Verif.Lemmas.IbpNet
import Verif.Props.Activations
import Verif.Props.Network

/-! Properties C18 (characterisation) and C113. -/

namespace Decomon

/-! ### C18: when the lines of an s-shaped function are right -/

section
variable {f f' : ℝ → ℝ}

theorem coeff_le_left (S : SShaped f f') {eps l u : ℝ} (he : 0 < eps) (hlu : l < u) (hl : 0 ≤ l) :
    (f u - f l) / max eps (u - l) ≤ f' l := by
  rw [div_le_iff₀ (lt_max_of_lt_left he)]
  have h1 := (S.concave_right hlu hl).2
  have h2 := mul_le_mul_of_nonneg_left (le_max_right eps (u - l)) (S.pos l).le
  linarith

theorem coeff_le_right (S : SShaped f f') {eps l u : ℝ} (he : 0 < eps) (hlu : l < u) (hu : u ≤ 0) :
    (f u - f l) / max eps (u - l) ≤ f' u := by
  rw [div_le_iff₀ (lt_max_of_lt_left he)]
  have h1 := (S.convex_left hlu hu).2
  have h2 := mul_le_mul_of_nonneg_left (le_max_right eps (u - l)) (S.pos u).le
  linarith

/-- On both sides of zero the slope of one end is below that of the secant. -/
theorem coeff_gt_end (S : SShaped f f') {eps l u : ℝ} (hd : eps ≤ u - l) (hl : l < 0) (hu : 0 < u) :
    f' u < (f u - f l) / max eps (u - l) ∨ f' l < (f u - f l) / max eps (u - l) := by
  by_contra hcon
  simp only [not_or, not_lt] at hcon
  rw [max_eq_right hd, div_le_iff₀ (by linarith), div_le_iff₀ (by linarith)] at hcon
  have a := (S.convex_left hl le_rfl).1
  have b := (S.concave_right hu le_rfl).1
  rcases le_total (f' u) (f' l) with h | h
  · have := mul_le_mul_of_nonneg_right h (by linarith : 0 ≤ 0 - l)
    nlinarith [hcon.1]
  · have := mul_le_mul_of_nonneg_right h (by linarith : 0 ≤ u - 0)
    nlinarith [hcon.2]

/-- C18: the two lines enclose the function on the interval exactly when the interval is a point, or is at least `epsilon` wide and does not
meet zero.  (The ends are not zero, where the code divides zero by zero.) -/
theorem C18_iff (S : SShaped f f') (eps : ℝ) (he : 0 < eps) (l u : ℝ) (hlu : l ≤ u) (h0 : l = u ∨ (l ≠ 0 ∧ u ≠ 0)) :
    (∀ z, l ≤ z → z ≤ u → (sShapeHull eps f f' u l).wl * z + (sShapeHull eps f f' u l).bl ≤ f z ∧
      f z ≤ (sShapeHull eps f f' u l).wu * z + (sShapeHull eps f f' u l).bu) ↔ OneSided eps l u := by
  constructor
  · intro h
    by_contra hcon
    simp only [OneSided, not_or, not_and] at hcon
    obtain ⟨hne, hcon⟩ := hcon
    have hlt := lt_of_le_of_ne hlu hne
    rcases lt_or_ge (u - l) eps with hd | hd
    · obtain ⟨n1, n2⟩ := C18_narrow_refuted S eps l u hlt hd
      have n1 : f' u < (f u - f l) / max eps (u - l) := not_le.mp fun hc => absurd (n1 hc) (not_lt.mpr (h u hlu le_rfl).2)
      have n2 : f' l < (f u - f l) / max eps (u - l) := not_le.mp fun hc => absurd (n2 hc) (not_lt.mpr (h l le_rfl hlu).1)
      have hl : l < 0 := not_le.mp fun hl => absurd n2 (not_lt.mpr (coeff_le_left S he hlt hl))
      have hu : 0 < u := not_le.mp fun hu => absurd n1 (not_lt.mpr (coeff_le_right S he hlt hu))
      obtain ⟨z, a, b, c⟩ := C18_upper_search_refuted S eps he l u hl hu n1
      exact absurd (h z a b).2 (not_le.mpr c)
    · obtain ⟨c1, c2⟩ := hcon hd
      obtain ⟨hl0, hu0⟩ := h0.resolve_left hne
      have hl : l < 0 := lt_of_le_of_ne (not_lt.mp c1) hl0
      have hu : 0 < u := lt_of_le_of_ne (not_lt.mp c2) (Ne.symm hu0)
      rcases coeff_gt_end S hd hl hu with hc | hc
      · obtain ⟨z, a, b, c⟩ := C18_upper_search_refuted S eps he l u hl hu hc
        exact absurd (h z a b).2 (not_le.mpr c)
      · obtain ⟨z, a, b, c⟩ := C18_lower_search_refuted S eps he l u hl hu hc
        exact absurd (h z a b).1 (not_le.mpr c)
  · intro h z h1 h2
    have hd : eps ≤ u - l ∨ l = u := h.symm.imp And.left id
    have hup : (f u - f l) / max eps (u - l) ≤ f' u ∨ 0 < l := by
      rcases h with h | ⟨-, h | h⟩
      · left; rw [h]; simp [(S.pos u).le]
      · exact .inr h
      · rcases hlu.lt_or_eq with hlt | heq
        · exact .inl (coeff_le_right S he hlt h.le)
        · left; rw [heq]; simp [(S.pos u).le]
    have hlo : (f u - f l) / max eps (u - l) ≤ f' l ∨ u < 0 := by
      rcases h with h | ⟨-, h | h⟩
      · left; rw [h]; simp [(S.pos u).le]
      · rcases hlu.lt_or_eq with hlt | heq
        · exact .inl (coeff_le_left S he hlt h.le)
        · left; rw [heq]; simp [(S.pos u).le]
      · exact .inr h
    constructor
    · by_cases hc : (f u - f l) / max eps (u - l) ≤ f' l
      · exact C18_lower_secant_partial S eps he l u hd hc z h1 h2
      · exact C18_lower_const_partial S eps l u (hlo.resolve_left hc) (not_le.mp hc) z h1
    · by_cases hc : (f u - f l) / max eps (u - l) ≤ f' u
      · exact C18_upper_secant_partial S eps he l u hd hc z h1 h2
      · exact C18_upper_const_partial S eps l u (hup.resolve_left hc) (not_le.mp hc) z h2

example : (∀ z : ℝ, 1 ≤ z → z ≤ 2 → (sShapeHull 1 Real.tanh tanhPrime 2 1).wl * z + (sShapeHull 1 Real.tanh tanhPrime 2 1).bl ≤ Real.tanh z ∧
    Real.tanh z ≤ (sShapeHull 1 Real.tanh tanhPrime 2 1).wu * z + (sShapeHull 1 Real.tanh tanhPrime 2 1).bu) :=
  (C18_iff sshaped_tanh 1 one_pos 1 2 (by norm_num) (.inr (by norm_num))).mpr (.inr ⟨by norm_num, .inl (by norm_num)⟩)

/-- On a point the lines give the value. -/
theorem sShapeHull_point (S : SShaped f f') (eps y : ℝ) :
    (sShapeHull eps f f' y y).wl * y + (sShapeHull eps f f' y y).bl = f y ∧
      (sShapeHull eps f f' y y).wu * y + (sShapeHull eps f f' y y).bu = f y := by
  have h := (S.pos y).le
  simp [sShapeHull, h]

end

/-- C18 on an example: `[1, 2]` is right for `tanh`, `[-1, 2]` is not. -/
example : OneSided (1 / 10000000) 1 2 ∧ ¬ OneSided (1 / 10000000) (-1) 2 := by
  constructor <;> norm_num [OneSided]

/-! ### C113: one activation layer -/

/-- The names known to the backward activations. -/
def backNames : List (String × BackFn) :=
  [("softmax", .softmax), ("elu", .elu), ("selu", .selu), ("softplus", .softplus), ("softsign", .softsign), ("sigmoid", .sigmoid),
    ("tanh", .tanh), ("relu", .relu), ("relu_", .relu), ("exponential", .exponential), ("linear", .linear)]

/-- C113: each of these names, in any case, gives the function of that name; any other name raises `ValueError` when the layer is made. -/
theorem C113_names (lower : String → String) (name : String) :
    (∀ q ∈ backNames, lower name = q.1 → backDeserialize lower name = .ok q.2) ∧
    ((∀ q ∈ backNames, lower name ≠ q.1) → backDeserialize lower name = .error .valueError) := by
  constructor
  · intro q hq e
    simp only [backNames, List.mem_cons, List.not_mem_nil, or_false] at hq
    rcases hq with h | h | h | h | h | h | h | h | h | h | h <;> subst h <;> simp only [backDeserialize, e] <;> decide +kernel
  · intro h
    simp only [backNames, List.forall_mem_cons, List.not_mem_nil] at h
    obtain ⟨h1, h2, h3, h4, h5, h6, h7, h8, h9, h10, h11, -⟩ := h
    simp [backDeserialize, h1, h2, h3, h4, h5, h6, h7, h8, h9, h10, h11]

/-- C113 on examples: names in upper case, and a name of Keras that is not known. -/
example : backDeserialize asciiLower "Sigmoid" = .ok .sigmoid ∧ backDeserialize asciiLower "hard_sigmoid" = .error .valueError := by
  decide +kernel

section
variable {X ι κ : Type} [DecidableEq κ]

/-- C113: `elu`, `selu`, `exponential` and `softmax` raise `NotImplementedError`; `softplus` with the adaptive slope raises `ValueError`;
all the other calls return bounds. -/
theorem C113_raises (D : PertDomain X ι ℝ) (m : Mode) (eps : ℝ) (slope : Slope) (ft : Option ((κ → ℝ) × (κ → ℝ))) (a : BackFn)
    (f : Full X ι κ ℝ) :
    (a ∈ [BackFn.elu, .selu, .exponential, .softmax] → a.call D m eps slope ft f = .error .notImplemented) ∧
    (a = .softplus ∧ slope = .aSlope → a.call D m eps slope ft f = .error .valueError) ∧
    (a ∉ [BackFn.elu, .selu, .exponential, .softmax] → ¬ (a = .softplus ∧ slope = .aSlope) → ∃ b, a.call D m eps slope ft f = .ok b) := by
  cases a <;> simp [BackFn.call, backwardSoftplus]
  intro h; simp [h]

example (D : PertDomain Unit (Fin 1) ℝ) (f : Full Unit (Fin 1) (Fin 1) ℝ) : BackFn.elu.call D .ibp 1 .vSlope none f = .error .notImplemented ∧
    BackFn.softplus.call D .ibp 1 .aSlope none f = .error .valueError ∧ ∃ b, BackFn.softplus.call D .ibp 1 .vSlope none f = .ok b :=
  ⟨(C113_raises D .ibp 1 .vSlope none .elu f).1 (by simp), (C113_raises D .ibp 1 .aSlope none .softplus f).2.1 ⟨rfl, rfl⟩,
    (C113_raises D .ibp 1 .vSlope none .softplus f).2.2 (by simp) (by simp)⟩

/-- The backward function of an s-shaped activation. -/
theorem call_sShape (D : PertDomain X ι ℝ) (m : Mode) (eps : ℝ) (slope : Slope) (ft : Option ((κ → ℝ) × (κ → ℝ))) (a : SmoothAct)
    (ha : a.IsSShape) : ∃ g g' : ℝ → ℝ, SShaped g g' ∧ (∀ z, a.eval z = g z) ∧
      ∀ f : Full X ι κ ℝ, a.toBack.call D m eps slope ft f = .ok (backwardSShape D m eps g g' f) := by
  cases a with
  | sigmoid => exact ⟨_, _, sshaped_sigmoid, fun z => by simp [SmoothAct.eval, Real.sigmoid], fun f => rfl⟩
  | tanh => exact ⟨_, _, sshaped_tanh, fun z => rfl, fun f => rfl⟩
  | softsign => exact ⟨_, _, sshaped_softsign, fun z => rfl, fun f => rfl⟩
  | exponential => exact absurd ha (by simp [SmoothAct.IsSShape])
  | softplus => exact absurd ha (by simp [SmoothAct.IsSShape])

variable [Fintype κ]

/-- C113: the bounds of a backward `sigmoid`, `tanh` or `softsign` layer hold at all the vectors within the constant bounds of its input
exactly when each of these intervals is a point, or is at least `epsilon` wide and does not meet zero. -/
theorem C113_sshape_iff (D : PertDomain X ι ℝ) (m : Mode) (eps : ℝ) (he : 0 < eps) (slope : Slope) (ft : Option ((κ → ℝ) × (κ → ℝ)))
    (a : SmoothAct) (ha : a.IsSShape) (inp : Full X ι κ ℝ) (l u : κ → ℝ) (hl : (inp.tighten D m true true).lc = l)
    (hu : (inp.tighten D m true true).uc = u) (hlu : ∀ k, l k ≤ u k) (h0 : ∀ k, l k = u k ∨ (l k ≠ 0 ∧ u k ≠ 0)) :
    ∃ b, a.toBack.call D m eps slope ft inp = .ok b ∧
      ((∀ y : κ → ℝ, (∀ k, l k ≤ y k ∧ y k ≤ u k) → b.Holds y fun k => a.eval (y k)) ↔ ∀ k, OneSided eps (l k) (u k)) := by
  obtain ⟨g, g', S, e, hcall⟩ := call_sShape (ι := ι) D m eps slope ft a ha
  refine ⟨_, hcall inp, ?_⟩
  have hb : ∀ (y : κ → ℝ), (backwardSShape D m eps g g' inp).Holds y (fun k => a.eval (y k)) ↔
      ∀ k, (sShapeHull eps g g' (u k) (l k)).wl * y k + (sShapeHull eps g g' (u k) (l k)).bl ≤ g (y k) ∧
        g (y k) ≤ (sShapeHull eps g g' (u k) (l k)).wu * y k + (sShapeHull eps g g' (u k) (l k)).bu := by
    intro y
    simp only [Back.Holds, backwardSShape, Back.ofDiag, diagLike_sum, hl, hu, e]
  simp only [hb]
  constructor
  · intro h k
    refine (C18_iff S eps he (l k) (u k) (hlu k) (h0 k)).1 fun z h1 h2 => ?_
    have := h (Function.update l k z) (fun j => ?_) k
    · simpa using this
    · by_cases hj : j = k
      · subst hj; simp [h1, h2]
      · simp [hj, hlu j]
  · intro h y hy k
    exact (C18_iff S eps he (l k) (u k) (hlu k) (h0 k)).2 (h k) (y k) (hy k).1 (hy k).2

/-- C113: the lower bound of a backward `softplus` layer holds at all the vectors within the constant bounds of its input, for all slopes
that are accepted and finetuning variables in `[0, 1]`.  Missing with respect to the full claim: the upper bound, refuted below. -/
theorem C113_softplus_lower_partial (D : PertDomain X ι ℝ) (m : Mode) (eps : ℝ) (he : 0 < eps) (slope : Slope)
    (ft : Option ((κ → ℝ) × (κ → ℝ))) (hft : ∀ q ∈ ft, ∀ k, 0 ≤ q.2 k ∧ q.2 k ≤ 1) (inp : Full X ι κ ℝ) (b : Back κ κ ℝ)
    (hb : BackFn.softplus.call D m eps slope ft inp = .ok b) (y : κ → ℝ)
    (hy : ∀ k, (inp.tighten D m true true).lc k ≤ y k ∧ y k ≤ (inp.tighten D m true true).uc k) (k : κ) :
    affEval (fun i => b.wl i k) (b.bl k) y ≤ SmoothAct.softplus.eval (y k) := by
  have hs : slope ≠ .aSlope := by
    rintro rfl; simp [BackFn.call, backwardSoftplus] at hb
  simp only [BackFn.call, backwardSoftplus, hs, if_false] at hb
  have hb := Except.ok.inj hb
  subst hb
  obtain ⟨h, hh⟩ := (C20_slopes eps slope (ft.map fun a => (a.1 k, a.2 k)) ((inp.tighten D m true true).lc k)
    ((inp.tighten D m true true).uc k)).2 hs
  simp only [Back.ofDiag, diagLike_sum, hh]
  refine C20_lower_partial eps he slope _ ?_ _ _ h hh (y k) (hy k).1 (hy k).2
  intro q hq
  obtain ⟨r, hr, rfl⟩ := Option.mem_map.1 hq
  exact hft r hr k

/-- C113: the upper bound of a backward `softplus` layer is wrong for all bounds of its input, all slopes, and every neuron: at the upper
ends it is below the value. -/
theorem C113_softplus_upper_refuted (D : PertDomain X ι ℝ) (m : Mode) (eps : ℝ) (he : 0 < eps) (slope : Slope)
    (ft : Option ((κ → ℝ) × (κ → ℝ))) (hft : ∀ q ∈ ft, ∀ k, 0 ≤ q.1 k ∧ q.1 k ≤ 1) (inp : Full X ι κ ℝ) (b : Back κ κ ℝ)
    (hb : BackFn.softplus.call D m eps slope ft inp = .ok b)
    (hlu : ∀ k, (inp.tighten D m true true).lc k ≤ (inp.tighten D m true true).uc k) (k : κ) :
    affEval (fun i => b.wu i k) (b.bu k) (inp.tighten D m true true).uc < SmoothAct.softplus.eval ((inp.tighten D m true true).uc k) := by
  have hs : slope ≠ .aSlope := by
    rintro rfl; simp [BackFn.call, backwardSoftplus] at hb
  simp only [BackFn.call, backwardSoftplus, hs, if_false] at hb
  have hb := Except.ok.inj hb
  subst hb
  obtain ⟨h, hh⟩ := (C20_slopes eps slope (ft.map fun a => (a.1 k, a.2 k)) ((inp.tighten D m true true).lc k)
    ((inp.tighten D m true true).uc k)).2 hs
  simp only [Back.ofDiag, diagLike_sum, hh]
  refine C20_upper_refuted eps he slope _ ?_ _ _ (hlu k) h hh
  intro q hq
  obtain ⟨r, hr, rfl⟩ := Option.mem_map.1 hq
  exact hft r hr k

/-- `tanh` and softplus of an input in `[1, 2]`, in constant bounds. -/
example : ∃ b, SmoothAct.tanh.toBack.call boxDomain .ibp (1 / 10) .vSlope none (inputTensorsBox .ibp (fun _ : Fin 1 => (1 : ℝ)) fun _ => 2) = .ok b ∧
    ∀ y : Fin 1 → ℝ, (∀ k, 1 ≤ y k ∧ y k ≤ 2) → b.Holds y fun k => SmoothAct.tanh.eval (y k) := by
  obtain ⟨b, h, hb⟩ := C113_sshape_iff boxDomain .ibp (1 / 10) (by norm_num) .vSlope none .tanh trivial (inputTensorsBox .ibp (fun _ : Fin 1 => (1 : ℝ)) fun _ => 2)
    (fun _ => 1) (fun _ => 2) (by simp [Full.tighten, inputTensorsBox, getIbp, getAffine]) (by simp [Full.tighten, inputTensorsBox, getIbp, getAffine])
    (fun _ => by norm_num) (fun _ => .inr (by norm_num))
  exact ⟨b, h, hb.mpr fun k => .inr ⟨by norm_num, .inl (by norm_num)⟩⟩

example (y : Fin 1 → ℝ) (hy : ∀ k, 1 ≤ y k ∧ y k ≤ 2) (k : Fin 1) :
    ∃ b, BackFn.softplus.call boxDomain .ibp (1 / 10) .vSlope none (inputTensorsBox .ibp (fun _ : Fin 1 => (1 : ℝ)) fun _ => 2) = .ok b ∧
      affEval (fun i => b.wl i k) (b.bl k) y ≤ SmoothAct.softplus.eval (y k) := by
  obtain ⟨b, hb⟩ := (C113_raises boxDomain .ibp (1 / 10 : ℝ) .vSlope none .softplus (inputTensorsBox .ibp (fun _ : Fin 1 => (1 : ℝ)) fun _ => 2)).2.2 (by simp) (by simp)
  exact ⟨b, hb, C113_softplus_lower_partial boxDomain .ibp _ (by norm_num) .vSlope none (by simp) _ b hb y
    (fun k => by simpa [Full.tighten, inputTensorsBox, getIbp, getAffine] using hy k) k⟩

end

/-! ### C113: shapes -/

theorem prodShape_map (l : List ℕ) : prodShape (l.map some) = .ok l.prod := by
  induction l with
  | nil => rfl
  | cons a t ih => simp [prodShape, ih, Except.map]

/-- C113: the backward `relu`, `softsign` and `linear` layers return tensors of the announced shapes (matrices over the flattened neurons)
for bounds of every shape; `sigmoid`, `tanh` and `softplus` do so exactly for bounds of rank 2. -/
theorem C113_shapes (a : BackFn) (b : Option ℕ) (s : List ℕ) :
    (a ∈ [BackFn.relu, .softsign, .linear] → a.callShapes b s = backwardOutputShape (b :: s.map some) (b :: s.map some)) ∧
    (a ∈ [BackFn.sigmoid, .tanh, .softplus] →
      (a.callShapes b s = backwardOutputShape (b :: s.map some) (b :: s.map some) ↔ s.length = 1)) := by
  have key : backwardOutputShape (b :: s.map some) (b :: s.map some)
      = .ok [[b, some s.prod, some s.prod], [b, some s.prod], [b, some s.prod, some s.prod], [b, some s.prod]] := by
    simp [backwardOutputShape, prodShape_map]
  rw [key]
  constructor
  · intro h
    simp only [List.mem_cons, List.not_mem_nil, or_false] at h
    rcases h with rfl | rfl | rfl <;> simp [BackFn.callShapes, BackFn.hullShapes, Except.map, diagShape]
  · intro h
    simp only [List.mem_cons, List.not_mem_nil, or_false] at h
    have aux : (Except.ok [diagShape (b :: s.map some), b :: s.map some, diagShape (b :: s.map some), b :: s.map some] : Except PyErr _)
        = .ok [[b, some s.prod, some s.prod], [b, some s.prod], [b, some s.prod, some s.prod], [b, some s.prod]] ↔ s.length = 1 := by
      match s with
      | [] => simp [diagShape]
      | [n] => simp [diagShape]
      | n :: k :: t => simp
    rcases h with rfl | rfl | rfl <;> simpa [BackFn.callShapes, BackFn.hullShapes, Except.map] using aux

/-- C113: for bounds of rank 3 or more the layer that chains the bounds of a backward `sigmoid`, `tanh` or `softplus` with those of another
layer, above or below, raises `ValueError`, although the model was built (the announced shapes are those of matrices). -/
theorem C113_merge_refuted (a : BackFn) (ha : a ∈ [BackFn.sigmoid, .tanh, .softplus]) (b : Option ℕ) (s : List ℕ) (hs : 2 ≤ s.length)
    (other : List KShape) (ho : other.length = 4) (sp0 sp1 : KShape) :
    ∃ mine, a.callShapes b s = .ok mine ∧ mergeLayerShapes sp0 sp1 (mine ++ other) = .error .valueError ∧
      mergeLayerShapes sp0 sp1 (other ++ mine) = .error .valueError := by
  obtain ⟨n, k, t, rfl⟩ : ∃ n k t, s = n :: k :: t := by
    match s, hs with
    | n :: k :: t, _ => exact ⟨n, k, t, rfl⟩
  obtain ⟨o0, o1, o2, o3, rfl⟩ : ∃ o0 o1 o2 o3, other = [o0, o1, o2, o3] := by
    match other, ho with
    | [o0, o1, o2, o3], _ => exact ⟨o0, o1, o2, o3, rfl⟩
  have hfalse : ∀ q, specOk 2 q none (b :: (n :: k :: t).map some) = false := by
    intro q; simp [specOk]
  simp only [List.mem_cons, List.not_mem_nil, or_false] at ha
  have aux : ∀ w : KShape, mergeLayerShapes sp0 sp1 ([w, b :: (n :: k :: t).map some, w, b :: (n :: k :: t).map some] ++ [o0, o1, o2, o3])
        = .error .valueError ∧
      mergeLayerShapes sp0 sp1 ([o0, o1, o2, o3] ++ [w, b :: (n :: k :: t).map some, w, b :: (n :: k :: t).map some]) = .error .valueError := by
    intro w
    constructor <;> (simp only [mergeLayerShapes, List.cons_append, List.nil_append]; split <;> simp_all)
  rcases ha with rfl | rfl | rfl <;> exact ⟨_, rfl, aux _⟩

/-- C113: for bounds of rank 2 the chaining works, with a dense layer of `o` outputs above and another of `i` inputs below. -/
theorem C113_merge_rank2 (a : BackFn) (ha : a ∈ [BackFn.relu, .softsign, .linear, .sigmoid, .tanh, .softplus]) (b : Option ℕ) (n o i : ℕ) :
    ∃ mine above below, a.callShapes b [n] = .ok mine ∧ backwardOutputShape [b, some n] [b, some o] = .ok above ∧
      backwardOutputShape [b, some i] [b, some n] = .ok below ∧
      mergeLayerShapes [b, some n, some n] [b, some n, some o] (mine ++ above) = .ok above ∧
      mergeLayerShapes [b, some i, some n] [b, some n, some n] (below ++ mine) = .ok below := by
  simp only [List.mem_cons, List.not_mem_nil, or_false] at ha
  rcases ha with rfl | rfl | rfl | rfl | rfl | rfl <;>
    exact ⟨_, _, _, rfl, rfl, rfl, by simp [mergeLayerShapes, specOk, diagShape, prodShape, Except.map, mergeWithPreviousShapes],
      by simp [mergeLayerShapes, specOk, diagShape, prodShape, Except.map, mergeWithPreviousShapes]⟩

example : BackFn.sigmoid.callShapes none [4] = backwardOutputShape [none, some 4] [none, some 4] := ((C113_shapes .sigmoid none [4]).2 (by simp)).mpr rfl

example : ∃ mine above below, BackFn.tanh.callShapes none [4] = .ok mine ∧ backwardOutputShape [none, some 4] [none, some 2] = .ok above ∧
    backwardOutputShape [none, some 3] [none, some 4] = .ok below ∧ mergeLayerShapes [none, some 4, some 4] [none, some 4, some 2] (mine ++ above) = .ok above ∧
    mergeLayerShapes [none, some 3, some 4] [none, some 4, some 4] (below ++ mine) = .ok below := C113_merge_rank2 .tanh (by simp) none 4 2 3

/-- C113 on an example: bounds of a convolution with 2 × 2 × 3 entries. -/
example : BackFn.sigmoid.callShapes none [2, 2, 3] = .ok [[none, some 2, some 2, some 3], [none, some 2, some 2, some 3],
      [none, some 2, some 2, some 3], [none, some 2, some 2, some 3]] ∧
    BackFn.relu.callShapes none [2, 2, 3] = .ok [[none, some 12, some 12], [none, some 12], [none, some 12, some 12], [none, some 12]] := by
  decide +kernel

/-! ### C113: networks -/

section
variable {X ι κ : Type} [Fintype ι] [DecidableEq ι]

theorem SNet.toRNet_eval (p : ι → ℝ) {κ : Type} (n : SNet ι κ) : n.toRNet.eval p = n.eval p := by
  induction n with
  | input => rfl
  | layer n l ih => simp only [SNet.toRNet, RNet.eval, SNet.eval, ih]
  | act a ft n ih => simp only [SNet.toRNet, RNet.eval, SNet.eval, ih]

theorem SNet.toRNet_wf {κ : Type} (n : SNet ι κ) (h : n.WF) : n.toRNet.WF := by
  induction n with
  | input => trivial
  | layer n l ih => exact ⟨ih h.1, h.2⟩
  | act a ft n ih => exact ih h

/-- Both entries of `crown_` succeed with sound bounds. -/
theorem CrownCfg.nodeS_holds (c : CrownCfg X ι ℝ) (he : 0 < c.eps) (S : Set (ι → ℝ)) (hD : c.D.Sound c.inp.x S)
    (hst : c.m = .ibp → c.D.Sound (c.stack c.inp.lc c.inp.uc) S) (huf : c.useForward = true → c.m = .ibp) (p : ι → ℝ) (hp : p ∈ S)
    (hi : Valid c.m false c.inp p p) {κ : Type} (n : SNet ι κ) (hn : n.WF) (ho : n.OnlySShape) (hs : c.SafeS n) :
    (∃ b, (c.nodeS n).first = .ok b ∧ b.Holds p (n.eval p)) ∧
    ∀ [Fintype κ], ∀ (ν : Type) (b : Back κ ν ℝ) (t : ν → ℝ), b.Holds (n.eval p) t →
      ∃ b', (c.nodeS n).next ν b = .ok b' ∧ b'.Holds p t := by
  have hchild : ∀ {κ : Type} (n : SNet ι κ), n.WF → (∃ b, (c.nodeS n).first = .ok b ∧ b.Holds p (n.eval p)) →
      ∃ f, c.childInputS n (c.nodeS n) = .ok f ∧ c.D.Sound f.x S ∧ Valid c.m false f p (n.eval p) := by
    intro κ n hn ⟨b0, hb0, hh0⟩
    unfold CrownCfg.childInputS
    cases hu : c.useForward with
    | true =>
      refine ⟨_, if_pos rfl, by rw [RNet.forward_x]; exact hD, ?_⟩
      have hm := huf hu
      rw [hm] at hi ⊢
      rw [← SNet.toRNet_eval]
      exact RNet.forward_valid c.D c.eps he c.slope c.inp S hD p hp hi n.toRNet (n.toRNet_wf hn)
    | false =>
      refine ⟨convert2BackwardMode c.D c.stack c.m c.inp b0, by simp [hb0, Except.map], ?_, ?_⟩
      · simp only [convert2BackwardMode]; split <;> [exact hD; (rename_i hm; simpa [hm] using hD)]
      · exact convert2BackwardMode_valid c.D c.stack c.m c.inp S (fun _ => hD) hst p hp b0 _ hh0
  induction n with
  | input =>
    have key := fun (ν : Type) (b : Back ι ν ℝ) t h => fuse_merge_holds c.m c.inp p hi b t h
    refine ⟨⟨_, rfl, fuse_holds c.m c.inp p hi _ _ (holds_identity p)⟩, ?_⟩
    intro inst ν b t h
    exact ⟨_, rfl, key ν b t (holds_inst _ _ _ _ _ h)⟩
  | @layer κ₁ κ₂ _ _ _ n l ih =>
    obtain ⟨h0, hnext⟩ := ih hn.1 ho hs.1
    obtain ⟨f, hf, hfx, hfv⟩ := hchild n hn.1 h0
    have hl := l.backward_holds c.D c.m c.eps he c.slope hn.2 f S hfx (hs.2 f hf) p hp _ hfv
    constructor
    · obtain ⟨b', h1, h2⟩ := hnext κ₂ _ _ hl
      refine ⟨b', ?_, h2⟩
      simp only [CrownCfg.nodeS, hf, Except.map, bind, Except.bind]
      exact h1
    · have key := fun (ν : Type) (b : Back κ₂ ν ℝ) t h =>
        hnext ν _ t (holds_merge _ b (n.eval p) (l.eval (n.eval p)) t hl h)
      intro inst ν b t h
      obtain ⟨b', h1, h2⟩ := key ν b t (holds_inst _ _ _ _ _ h)
      refine ⟨b', ?_, h2⟩
      simp only [CrownCfg.nodeS, hf, Except.map, bind, Except.bind]
      exact h1
  | @act κ₁ _ _ a ft n ih =>
    obtain ⟨h0, hnext⟩ := ih hn ho.2 hs.1
    obtain ⟨f, hf, hfx, hfv⟩ := hchild n hn h0
    obtain ⟨g, g', Sg, e, hcall⟩ := call_sShape (ι := ι) c.D c.m c.eps c.slope ft a ho.1
    have hc := tighten_const c.D c.m false f S hfx p hp _ hfv
    have hl : (backwardSShape c.D c.m c.eps g g' f).Holds (n.eval p) (fun k => a.eval (n.eval p k)) := by
      intro k
      simp only [backwardSShape, Back.ofDiag, diagLike_sum, e]
      have hos := hs.2 f hf k
      refine (C18_iff Sg c.eps he _ _ ((hc k).1.trans (hc k).2) ?_).2 hos _ (hc k).1 (hc k).2
      rcases hos with h | ⟨h1, h | h⟩
      · exact .inl h
      · exact .inr ⟨h.ne', by linarith⟩
      · exact .inr ⟨by linarith, h.ne⟩
    constructor
    · obtain ⟨b', h1, h2⟩ := hnext κ₁ _ _ hl
      refine ⟨b', ?_, h2⟩
      simp only [CrownCfg.nodeS, hf, hcall, bind, Except.bind]
      exact h1
    · have key := fun (ν : Type) (b : Back κ₁ ν ℝ) t h =>
        hnext ν _ t (holds_merge _ b (n.eval p) (fun k => a.eval (n.eval p k)) t hl h)
      intro inst ν b t h
      obtain ⟨b', h1, h2⟩ := key ν b t (holds_inst _ _ _ _ _ h)
      refine ⟨b', ?_, h2⟩
      simp only [CrownCfg.nodeS, hf, hcall, bind, Except.bind]
      exact h1

/-- C113: a chain of layers with `sigmoid`, `tanh`, `softsign` activations on a box, methods `crown` (`uf = false`) and `crown-forward-ibp`
(`uf = true`, `m = ibp`): the backward pass succeeds and its bounds are sound, provided the intervals that reach the s-shaped activations
are one-sided.  Missing with respect to the full claim: the other intervals, `softplus`, and the slivers of `relu`, all refuted. -/
theorem C113_crown_partial (m : Mode) (eps : ℝ) (he : 0 < eps) (slope : Slope) (uf : Bool) (huf : uf = true → m = .ibp) (xmin xmax : ι → ℝ)
    (n : SNet ι κ) (hn : n.WF) (ho : n.OnlySShape) (hs : (boxCrown m eps slope uf xmin xmax).SafeS n) (p : ι → ℝ) (hp : p ∈ Box xmin xmax) :
    ∃ out, (boxCrown m eps slope uf xmin xmax).modelS n = .ok out ∧ Valid m false out p (n.eval p) := by
  obtain ⟨⟨b, h1, h2⟩, -⟩ := (boxCrown m eps slope uf xmin xmax).nodeS_holds he (Box xmin xmax) (boxDomain_sound xmin xmax)
    (boxCrown_stack m eps slope uf xmin xmax) huf p hp (C27_input_box m xmin xmax p hp) n hn ho hs
  exact ⟨_, by rw [CrownCfg.modelS, h1]; rfl, convert2BackwardMode_valid _ _ m _ (Box xmin xmax) (fun _ => boxDomain_sound xmin xmax)
    (boxCrown_stack m eps slope uf xmin xmax) p hp b _ h2⟩

/-- Both entries of `crown_` give the value at a point. -/
theorem CrownCfg.nodeS_exactAt (c : CrownCfg X ι ℝ) (p : ι → ℝ) (hD : c.D.Point c.inp.x p)
    (hst : c.m = .ibp → c.D.Point (c.stack c.inp.lc c.inp.uc) p) (huf : c.useForward = true → c.m = .ibp) (hi : ExactAt c.m c.inp p p)
    {κ : Type} (n : SNet ι κ) (ho : n.OnlySShape) :
    (∃ b, (c.nodeS n).first = .ok b ∧ b.ExactAt p (n.eval p)) ∧
    ∀ [Fintype κ], ∀ (ν : Type) (b : Back κ ν ℝ) (t : ν → ℝ), b.ExactAt (n.eval p) t →
      ∃ b', (c.nodeS n).next ν b = .ok b' ∧ b'.ExactAt p t := by
  have hid : (Back.identity : Back ι ι ℝ).ExactAt p p := exactAt_of_exact exact_identity p
  have hchild : ∀ {κ : Type} (n : SNet ι κ), (∃ b, (c.nodeS n).first = .ok b ∧ b.ExactAt p (n.eval p)) →
      ∃ f, c.childInputS n (c.nodeS n) = .ok f ∧ c.D.Point f.x p ∧ ExactAt c.m f p (n.eval p) := by
    intro κ n ⟨b0, hb0, hh0⟩
    unfold CrownCfg.childInputS
    cases hu : c.useForward with
    | true =>
      refine ⟨_, if_pos rfl, by rw [RNet.forward_x]; exact hD, ?_⟩
      have hm := huf hu
      rw [hm] at hi ⊢
      rw [← SNet.toRNet_eval]
      exact ⟨fun _ => RNet.forward_pinned c.D c.eps c.slope c.inp p hD (hi.const rfl) n.toRNet, by simp [getAffine]⟩
    | false =>
      refine ⟨convert2BackwardMode c.D c.stack c.m c.inp b0, by simp [hb0, Except.map], ?_, ?_⟩
      · simp only [convert2BackwardMode]; split <;> [exact hD; (rename_i hm; simpa [hm] using hD)]
      · exact convert2BackwardMode_exact c.D c.stack c.m c.inp p hD hst b0 _ hh0
  induction n with
  | input =>
    have key := fun (ν : Type) (b : Back ι ν ℝ) t h => fuse_exactAt c.m c.inp p hi _ t (merge_exactAt Back.identity b p p t hid h)
    refine ⟨⟨_, rfl, fuse_exactAt c.m c.inp p hi _ _ hid⟩, ?_⟩
    intro inst ν b t h
    exact ⟨_, rfl, key ν b t (exactAt_inst _ _ _ _ _ h)⟩
  | @layer κ₁ κ₂ _ _ _ n l ih =>
    obtain ⟨h0, hnext⟩ := ih ho
    obtain ⟨f, hf, hfx, hfv⟩ := hchild n h0
    have hl := l.backward_exact c.D c.m c.eps c.slope f p hfx _ hfv
    constructor
    · obtain ⟨b', h1, h2⟩ := hnext κ₂ _ _ hl
      refine ⟨b', ?_, h2⟩
      simp only [CrownCfg.nodeS, hf, Except.map, bind, Except.bind]
      exact h1
    · have key := fun (ν : Type) (b : Back κ₂ ν ℝ) t h =>
        hnext ν _ t (merge_exactAt _ b (n.eval p) (l.eval (n.eval p)) t hl h)
      intro inst ν b t h
      obtain ⟨b', h1, h2⟩ := key ν b t (exactAt_inst _ _ _ _ _ h)
      refine ⟨b', ?_, h2⟩
      simp only [CrownCfg.nodeS, hf, Except.map, bind, Except.bind]
      exact h1
  | @act κ₁ _ _ a ft n ih =>
    obtain ⟨h0, hnext⟩ := ih ho.2
    obtain ⟨f, hf, hfx, hfv⟩ := hchild n h0
    obtain ⟨g, g', Sg, e, hcall⟩ := call_sShape (ι := ι) c.D c.m c.eps c.slope ft a ho.1
    have hc := (tighten_exact c.D c.m true true f p hfx _ hfv).2 rfl
    have hl : (backwardSShape c.D c.m c.eps g g' f).ExactAt (n.eval p) (fun k => a.eval (n.eval p k)) := by
      intro k
      simp only [backwardSShape, Back.ofDiag, diagLike_sum, e, hc]
      exact sShapeHull_point Sg c.eps _
    constructor
    · obtain ⟨b', h1, h2⟩ := hnext κ₁ _ _ hl
      refine ⟨b', ?_, h2⟩
      simp only [CrownCfg.nodeS, hf, hcall, bind, Except.bind]
      exact h1
    · have key := fun (ν : Type) (b : Back κ₁ ν ℝ) t h =>
        hnext ν _ t (merge_exactAt _ b (n.eval p) (fun k => a.eval (n.eval p k)) t hl h)
      intro inst ν b t h
      obtain ⟨b', h1, h2⟩ := key ν b t (exactAt_inst _ _ _ _ _ h)
      refine ⟨b', ?_, h2⟩
      simp only [CrownCfg.nodeS, hf, hcall, bind, Except.bind]
      exact h1

/-- C113: on a single point the backward pass returns the value of the network, for all such networks, whatever their weights and
finetuning variables. -/
theorem C113_point (m : Mode) (eps : ℝ) (slope : Slope) (uf : Bool) (huf : uf = true → m = .ibp) (p : ι → ℝ) (n : SNet ι κ)
    (ho : n.OnlySShape) :
    ∃ out, (boxCrown m eps slope uf p p).modelS n = .ok out ∧ ExactAt m out p (n.eval p) := by
  have hst : (boxCrown m eps slope uf p p).m = .ibp → (boxCrown m eps slope uf p p).D.Point
      ((boxCrown m eps slope uf p p).stack (boxCrown m eps slope uf p p).inp.lc (boxCrown m eps slope uf p p).inp.uc) p := by
    intro hm
    have : m = .ibp := hm
    subst this
    have : ((boxCrown .ibp eps slope uf p p).stack (boxCrown .ibp eps slope uf p p).inp.lc
      (boxCrown .ibp eps slope uf p p).inp.uc) = (p, p) := by simp [boxCrown, inputTensorsBox, getIbp]
    rw [this]
    exact boxDomain_point p
  obtain ⟨⟨b, h1, h2⟩, -⟩ := (boxCrown m eps slope uf p p).nodeS_exactAt p (boxDomain_point p) hst huf (inputTensorsBox_exact m p) n ho
  exact ⟨_, by rw [CrownCfg.modelS, h1]; rfl, convert2BackwardMode_exact _ _ m _ p (boxDomain_point p) hst b _ h2⟩

/-- C113: a network with an `exponential` activation raises `NotImplementedError` where its bounds are asked for. -/
theorem C113_exponential_raises (c : CrownCfg X ι ℝ) [Fintype κ] [DecidableEq κ] (ft : Option ((κ → ℝ) × (κ → ℝ))) (n : SNet ι κ) (f : Full X ι κ ℝ)
    (hf : c.childInputS n (c.nodeS n) = .ok f) : c.modelS (.act .exponential ft n) = .error .notImplemented := by
  simp [CrownCfg.modelS, CrownCfg.nodeS, hf, SmoothAct.toBack, BackFn.call, bind, Except.bind, Except.map]

/-- The backward pass over one activation on the inputs. -/
theorem modelS_act_input (m : Mode) (eps : ℝ) (slope : Slope) (uf : Bool) (huf : uf = true → m = .ibp) (xmin xmax : ι → ℝ)
    (hx : ∀ i, xmin i ≤ xmax i) (a : SmoothAct) (ft : Option ((ι → ℝ) × (ι → ℝ))) :
    ∃ f : Full ((ι → ℝ) × (ι → ℝ)) ι ι ℝ, (f.tighten boxDomain m true true).lc = xmin ∧ (f.tighten boxDomain m true true).uc = xmax ∧
      (∀ b, a.toBack.call boxDomain m eps slope ft f = .ok b →
        (boxCrown m eps slope uf xmin xmax).modelS (.act a ft .input)
          = .ok (convert2BackwardMode boxDomain Prod.mk m (inputTensorsBox m xmin xmax) b)) := by
  have hfuse : ∀ (ν : Type) (b : Back ι ν ℝ), fuse m (inputTensorsBox m xmin xmax) b = b := by
    intro ν b
    unfold fuse
    split
    · rename_i h
      have e : (⟨(inputTensorsBox m xmin xmax).wu, (inputTensorsBox m xmin xmax).bu, (inputTensorsBox m xmin xmax).wl,
          (inputTensorsBox m xmin xmax).bl⟩ : Back ι ι ℝ) = Back.identity := by
        simp only [inputTensorsBox, h, Back.identity, if_true]
        rfl
      rw [e, C26_identity_left]
    · rfl
  have hU : ∀ k, getUpperBox xmin xmax (fun i => diagLike (fun _ => (1 : ℝ)) i k) 0 = xmax k := by
    intro k
    simp [getUpperBox, diagLike, ite_mul, apply_ite (fun t : ℝ => max t 0), apply_ite (fun t : ℝ => min t 0)]
  have hL : ∀ k, getLowerBox xmin xmax (fun i => diagLike (fun _ => (1 : ℝ)) i k) 0 = xmin k := by
    intro k
    simp [getLowerBox, diagLike, ite_mul, apply_ite (fun t : ℝ => max t 0), apply_ite (fun t : ℝ => min t 0)]
  have hrun : ∀ f, (boxCrown m eps slope uf xmin xmax).childInputS .input ((boxCrown m eps slope uf xmin xmax).nodeS .input) = .ok f →
      ∀ b, a.toBack.call boxDomain m eps slope ft f = .ok b →
      (boxCrown m eps slope uf xmin xmax).modelS (.act a ft .input)
          = .ok (convert2BackwardMode boxDomain Prod.mk m (inputTensorsBox m xmin xmax) b) := by
    intro f hf b hb
    have hb' : a.toBack.call (boxCrown m eps slope uf xmin xmax).D (boxCrown m eps slope uf xmin xmax).m (boxCrown m eps slope uf xmin xmax).eps
        (boxCrown m eps slope uf xmin xmax).slope ft f = .ok b := hb
    simp only [CrownCfg.modelS, CrownCfg.nodeS] at hf ⊢
    simp only [hf, hb', bind, Except.bind, Except.map]
    simp only [boxCrown, hfuse, C26_identity_left]
  cases uf with
  | true =>
    have := huf rfl
    subst this
    refine ⟨inputTensorsBox .ibp xmin xmax, ?_, ?_, hrun _ rfl⟩ <;> funext k <;> simp [Full.tighten, inputTensorsBox, getIbp]
  | false =>
    refine ⟨convert2BackwardMode boxDomain Prod.mk m (inputTensorsBox m xmin xmax) Back.identity, ?_, ?_, hrun _ ?_⟩
    · funext k
      cases m <;> simp [convert2BackwardMode, Back.identity, inputTensorsBox, getIbp, getAffine, Full.tighten, boxDomain, hL]
    · funext k
      cases m <;> simp [convert2BackwardMode, Back.identity, inputTensorsBox, getIbp, getAffine, Full.tighten, boxDomain, hU]
    · simp only [CrownCfg.childInputS, CrownCfg.nodeS, boxCrown, Except.map, hfuse]
      rfl

theorem getUpperBox_diag (xmin xmax v : ι → ℝ) (b : ℝ) (k : ι) :
    getUpperBox xmin xmax (fun i => diagLike v i k) b = max (v k) 0 * xmax k + min (v k) 0 * xmin k + b := by
  simp only [getUpperBox]
  congr 1
  rw [Finset.sum_eq_single k]
  · simp [diagLike]
  · intro i _ hi; simp [diagLike, hi]
  · simp

theorem softplusHull_wu_nonneg {eps l u : ℝ} (he : 0 < eps) (hlu : l ≤ u) {s : Slope} {h : Hull ℝ} (hh : softplusHull eps s none u l = .ok h) :
    0 ≤ h.wu := by
  have ha := (softplus_alpha_mem he hlu).1
  have hd : 0 ≤ 1 - indexDead u := by rcases indexDead_mem u with e | e <;> rw [e] <;> norm_num
  cases s <;> simp only [softplusHull] at hh
  all_goals first
    | (have hh := Except.ok.inj hh; subst hh; exact mul_nonneg hd ha)
    | exact absurd hh (by simp)

/-- C113: one `sigmoid`, `tanh` or `softsign` on the inputs, over any box of which one side lies strictly on both sides of zero: the affine
bounds of the backward pass fail at some point of the box. -/
theorem C113_sshape_crown_refuted (m : Mode) (hm : getAffine m = true) (eps : ℝ) (he : 0 < eps) (slope : Slope) (xmin xmax : ι → ℝ)
    (hx : ∀ i, xmin i ≤ xmax i) (h0 : ∀ i, xmin i ≠ 0 ∧ xmax i ≠ 0) (k : ι) (hk : xmin k < 0 ∧ 0 < xmax k) (a : SmoothAct) (ha : a.IsSShape)
    (ft : Option ((ι → ℝ) × (ι → ℝ))) :
    ∃ out, (boxCrown m eps slope false xmin xmax).modelS (.act a ft .input) = .ok out ∧
      ∃ p ∈ Box xmin xmax, ¬ Valid m false out p (fun i => a.eval (p i)) := by
  obtain ⟨f, h1, h2, h3⟩ := modelS_act_input m eps slope false (by simp) xmin xmax hx a ft
  obtain ⟨b, hb, hiff⟩ := C113_sshape_iff boxDomain m eps he slope ft a ha f xmin xmax h1 h2 hx fun i => .inr (h0 i)
  refine ⟨_, h3 b hb, ?_⟩
  by_contra hcon
  push Not at hcon
  have := hiff.1 (fun y hy => ?_) k
  · rcases this with h | ⟨-, h | h⟩ <;> linarith [hk.1, hk.2]
  · intro i
    have := (hcon y hy).aff hm i
    simpa [convert2BackwardMode, hm] using this

/-- C113: `softplus` on the inputs, over any box: every upper bound of the method `crown` is below the value at some point of the box. -/
theorem C113_softplus_crown_refuted (eps : ℝ) (he : 0 < eps) (slope : Slope) (hs : slope ≠ .aSlope) (uf : Bool) (xmin xmax : ι → ℝ)
    (hx : ∀ i, xmin i ≤ xmax i) :
    ∃ out, (boxCrown .ibp eps slope uf xmin xmax).modelS (.act .softplus none .input) = .ok out ∧
      ∀ k, ∃ p ∈ Box xmin xmax, out.uc k < Real.log (1 + Real.exp (p k)) := by
  obtain ⟨f, h1, h2, h3⟩ := modelS_act_input .ibp eps slope uf (fun _ => rfl) xmin xmax hx .softplus none
  obtain ⟨b, hb⟩ := (C113_raises boxDomain .ibp eps slope none .softplus f).2.2 (by simp) (by simp [hs])
  refine ⟨_, h3 b hb, fun k => ⟨xmax, fun i => ⟨hx i, le_rfl⟩, ?_⟩⟩
  have key := C113_softplus_upper_refuted boxDomain .ibp eps he slope none (by simp) f b hb (by rw [h1, h2]; exact hx) k
  rw [h2] at key
  refine lt_of_le_of_lt (le_of_eq ?_) key
  simp only [BackFn.call, backwardSoftplus, hs, if_false] at hb
  have hb := Except.ok.inj hb
  subst hb
  obtain ⟨h, hh⟩ := (C20_slopes eps slope none (xmin k) (xmax k)).2 hs
  have hw := softplusHull_wu_nonneg he (hx k) hh
  simp only [convert2BackwardMode, Back.ofDiag, diagLike_sum, h1, h2, Option.map_none, hh]
  simp only [inputTensorsBox, getIbp, boxDomain, if_true]
  rw [getUpperBox_diag, hh, max_eq_left hw, min_eq_right hw, zero_mul, add_zero]

/-- `tanh(x + 1)` for `x ∈ [0, 1]` with the method crown-forward-ibp, and `tanh(tanh(x))` at one point in every mode. -/
example (p : Fin 1 → ℝ) (hp : p ∈ Box (fun _ => 0) fun _ => 1) :
    ∃ out, (boxCrown .ibp (1 / 10000000) .vSlope true (fun _ : Fin 1 => (0 : ℝ)) (fun _ => 1)).modelS
      (.act .tanh none (.layer .input (.dense (fun (_ _ : Fin 1) => 1) (fun _ => 1)))) = .ok out ∧ Valid .ibp false out p 
      (SNet.eval p (.act .tanh none (.layer .input (.dense (fun (_ _ : Fin 1) => 1) (fun _ => 1))))) := by
  refine C113_crown_partial .ibp (1 / 10000000) (by norm_num) .vSlope true (fun _ => rfl) (fun _ => 0) (fun _ => 1)
    (.act .tanh none (.layer .input (.dense (fun (_ _ : Fin 1) => 1) (fun _ => 1)))) ⟨trivial, trivial⟩ ⟨trivial, trivial⟩ ⟨⟨trivial, fun f _ => trivial⟩, fun f hf k => ?_⟩ p hp
  have hf := Except.ok.inj hf
  subst hf
  right
  simp [boxCrown, SNet.toRNet, RNet.forward, Lay.forward, denseT, Full.tighten, inputTensorsBox, getIbp, getAffine]
  norm_num

example (m : Mode) (p : Fin 1 → ℝ) : ∃ out, (boxCrown m 1 .vSlope false p p).modelS (.act .tanh none (.act .tanh none .input)) = .ok out ∧
    ExactAt m out p fun k => Real.tanh (Real.tanh (p k)) :=
  C113_point m 1 .vSlope false (by simp) p (.act .tanh none (.act .tanh none .input)) ⟨trivial, trivial, trivial⟩

example : (boxCrown .hybrid 1 .vSlope false (fun _ : Fin 1 => (0 : ℝ)) (fun _ => 1)).modelS (.act .exponential none .input) = .error .notImplemented :=
  C113_exponential_raises _ none .input _ rfl

/-- C113 on an example: `tanh` after a dense layer that maps the box `[0, 1]` to `[1, 2]`; the hypotheses of `C113_crown_partial` hold. -/
example : (boxCrown .ibp (1 / 10000000) .vSlope true (fun _ : Fin 1 => (0 : ℝ)) (fun _ => 1)).SafeS
      (.act .tanh none (.layer .input (.dense (fun (_ _ : Fin 1) => 1) (fun _ => 1)))) ∧
    (SNet.act .tanh none (.layer .input (.dense (fun (_ _ : Fin 1) => (1 : ℝ)) (fun _ => 1)))).WF ∧
    (SNet.act .tanh none (.layer .input (.dense (fun (_ _ : Fin 1) => (1 : ℝ)) (fun _ => 1)))).OnlySShape := by
  refine ⟨⟨⟨trivial, fun f _ => trivial⟩, fun f hf k => ?_⟩, ⟨trivial, trivial⟩, ⟨trivial, trivial⟩⟩
  have hf := Except.ok.inj hf
  subst hf
  right
  simp [boxCrown, SNet.toRNet, RNet.forward, Lay.forward, denseT, Full.tighten, inputTensorsBox, getIbp, getAffine]
  norm_num

end

end Decomon
