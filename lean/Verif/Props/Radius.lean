import Verif.Model.Radius
import Verif.Props.Metrics
import Verif.Props.Network
import Verif.Props.Graph
import Verif.Props.Clone
import Verif.SpecNet

/-! Property C116: `build_radius_robust_model` end to end. -/

namespace Decomon

section Scores
variable {X ι κ α : Type} [Fintype ι] [Fintype κ] [Nonempty κ] [DecidableEq κ] [Field α] [LinearOrder α] [IsStrictOrderedRing α]

/-- A score below `1 - s` is a negative score on the box shrunk by `s`, for `eps` shrunk by `s`. -/
theorem radiusScore_scale (eps s : α) (he : 0 < eps) (hs : 0 < s) (hs1 : s ≤ 1) (xmin xmax : ι → α) (w : ι → κ → α) (b : κ → α) (i : κ)
    (hown : (∑ n, w n i * ((xmin n + xmax n) / 2)) + b i < 0) :
    radiusScore eps xmin xmax w b (fun k => if k = i then 1 else 0) < 1 - s ↔ ∀ j, j ≠ i →
      (∑ n, w n j * ((xmin n + xmax n) / 2)) + b j + s * max (∑ n, |w n j * max ((xmax n - xmin n) / 2) eps|) eps < 0 := by
  have hd : ∀ j, 0 < max (∑ n, |w n j * max ((xmax n - xmin n) / 2) eps|) eps := fun j => lt_max_of_lt_right he
  have key : ∀ c d y : α, (1 - min (-c / d + y) 2 < 1 - s ↔ s < -c / d + y) := by
    intro c d y
    rw [sub_lt_sub_iff_left, lt_min_iff]
    exact ⟨fun h => h.1, fun h => ⟨h, by linarith⟩⟩
  unfold radiusScore
  constructor
  · intro h j hj
    have h1 := (key _ _ _).mp ((le_maxOver _ j).trans_lt h)
    simp only [hj, if_false, add_zero] at h1
    rw [lt_div_iff₀ (hd j)] at h1
    linarith
  · intro h2
    obtain ⟨j, hj⟩ := exists_maxOver fun j => 1 - min (-((∑ n, w n j * ((xmin n + xmax n) / 2)) + b j) /
      max (∑ n, |w n j * max ((xmax n - xmin n) / 2) eps|) eps + (if j = i then 1 else 0)) 2
    rw [show (maxOver fun j => _) = _ from hj, key]
    by_cases hji : j = i
    · subst hji
      simp only [if_true]
      have : 0 < -((∑ n, w n j * ((xmin n + xmax n) / 2)) + b j) / max (∑ n, |w n j * max ((xmax n - xmin n) / 2) eps|) eps :=
        div_pos (by linarith) (hd j)
      linarith
    · simp only [hji, if_false, add_zero]
      rw [lt_div_iff₀ (hd j)]
      linarith [h2 j hji]

theorem centered_scale_iff (eps s : α) (he : 0 < eps) (hs : 0 < s) (xmin xmax w : ι → α) (b : α) :
    ((∑ i, w i * ((xmin i + xmax i) / 2)) + b + s * max (∑ i, |w i * max ((xmax i - xmin i) / 2) eps|) eps < 0) ↔
      affEval w b (fun i => (xmin i + xmax i) / 2) < -(s * eps) ∧
      ∀ p, (∀ i, |p i - (xmin i + xmax i) / 2| ≤ s * max ((xmax i - xmin i) / 2) eps) → affEval w b p < 0 := by
  have hse : 0 < s * eps := mul_pos hs he
  have h := centered_max_iff (s * eps) hse (fun i => (xmin i + xmax i) / 2 - s * ((xmax i - xmin i) / 2))
    (fun i => (xmin i + xmax i) / 2 + s * ((xmax i - xmin i) / 2)) w b
  have c : ∀ i, ((xmin i + xmax i) / 2 - s * ((xmax i - xmin i) / 2) + ((xmin i + xmax i) / 2 + s * ((xmax i - xmin i) / 2))) / 2 =
      (xmin i + xmax i) / 2 := fun i => by ring
  have r : ∀ i, max (((xmin i + xmax i) / 2 + s * ((xmax i - xmin i) / 2) - ((xmin i + xmax i) / 2 - s * ((xmax i - xmin i) / 2))) / 2)
      (s * eps) = s * max ((xmax i - xmin i) / 2) eps := fun i => by
    rw [mul_max_of_nonneg _ _ hs.le]; congr 1; ring
  have e : max (∑ i, |w i * (s * max ((xmax i - xmin i) / 2) eps)|) (s * eps) =
      s * max (∑ i, |w i * max ((xmax i - xmin i) / 2) eps|) eps := by
    rw [mul_max_of_nonneg _ _ hs.le, Finset.mul_sum]
    congr 1
    refine Finset.sum_congr rfl fun i _ => ?_
    rw [mul_left_comm, abs_mul, abs_of_pos hs]
  simp only [c, r] at h
  rw [e] at h
  exact h

/-- C116, meaning of the entries: for `0 < s ≤ 1`, entry `i` is below `1 - s` exactly when, on the box with the same centre and `s` times its
half widths (at least `s * eps`), the affine lower bound of output `i` is above the affine upper bound of every other output, and above it by
more than `s * eps` at the centre. -/
theorem C116_entry_iff (eps s : α) (he : 0 < eps) (hs : 0 < s) (hs1 : s ≤ 1) (xmin xmax : ι → α) (f : Full X ι κ α) (i : κ) :
    radiusRobust eps xmin xmax f i < 1 - s ↔ ∀ j, j ≠ i →
      (affEval (fun n => f.wu n j) (f.bu j) (fun n => (xmin n + xmax n) / 2) + s * eps <
        affEval (fun n => f.wl n i) (f.bl i) (fun n => (xmin n + xmax n) / 2)) ∧
      ∀ p, (∀ n, |p n - (xmin n + xmax n) / 2| ≤ s * max ((xmax n - xmin n) / 2) eps) →
        affEval (fun n => f.wu n j) (f.bu j) p < affEval (fun n => f.wl n i) (f.bl i) p := by
  unfold radiusRobust
  have e : ∀ j p, affEval (fun n => f.wu n j - f.wl n i) (f.bu j - f.bl i) p =
      affEval (fun n => f.wu n j) (f.bu j) p - affEval (fun n => f.wl n i) (f.bl i) p := by
    intro j p
    simp only [affEval, sub_mul, Finset.sum_sub_distrib]; ring
  have own : (∑ n, ((∑ k, - f.wl n k * (if k = i then 1 else 0)) + f.wu n i * (1 - if i = i then 1 else 0) +
      f.wl n i * (if i = i then 1 else 0)) * ((xmin n + xmax n) / 2)) + ((∑ k, - f.bl k * (if k = i then 1 else 0)) +
      f.bu i * (1 - if i = i then 1 else 0) + (f.bl i - 1000000) * (if i = i then 1 else 0)) < 0 := by
    simp
  rw [radiusScore_scale eps s he hs hs1 _ _ _ _ i own]
  refine forall_congr' fun j => forall_congr' fun hj => ?_
  have e1 : ∀ n, (∑ k, - f.wl n k * (if k = i then 1 else 0)) + f.wu n j * (1 - if j = i then 1 else 0) +
      f.wl n j * (if j = i then 1 else 0) = f.wu n j - f.wl n i := by intro n; simp [hj]; ring
  have e2 : (∑ k, - f.bl k * (if k = i then 1 else 0)) + f.bu j * (1 - if j = i then 1 else 0) +
      (f.bl j - 1000000) * (if j = i then 1 else 0) = f.bu j - f.bl i := by simp [hj]; ring
  simp only [e1, e2]
  rw [centered_scale_iff eps s he hs]
  simp only [e, sub_neg]
  rw [sub_lt_iff_lt_add, neg_add_eq_sub, lt_sub_iff_add_lt]

/-- C116: an entry is never below `-1`. -/
theorem C116_entry_ge (eps : α) (xmin xmax : ι → α) (f : Full X ι κ α) (i : κ) : -1 ≤ radiusRobust eps xmin xmax f i := by
  unfold radiusRobust radiusScore
  refine le_trans ?_ (le_maxOver _ i)
  have : ∀ t : α, (-1 : α) ≤ 1 - min t 2 := fun t => by linarith [min_le_right t 2]
  exact this _

/-- C116, any bounds: an entry below `1 - s` certifies label `i` on the box shrunk by `s` around its centre. -/
theorem C116_shrunk (eps s : α) (he : 0 < eps) (hs : 0 < s) (hs1 : s ≤ 1) (m : Mode) (hm : getAffine m = true) (xmin xmax : ι → α)
    (f : Full X ι κ α) (i : κ) (hneg : radiusRobust eps xmin xmax f i < 1 - s) (p : ι → α)
    (hp : ∀ n, |p n - (xmin n + xmax n) / 2| ≤ s * ((xmax n - xmin n) / 2)) (y : κ → α) (v : Valid m false f p y) (j : κ) (hj : j ≠ i) :
    y j < y i := by
  have h := ((C116_entry_iff eps s he hs hs1 xmin xmax f i).mp hneg j hj).2 p fun n =>
    (hp n).trans (mul_le_mul_of_nonneg_left (le_max_left _ _) hs.le)
  exact ((v.aff hm j).2.trans_lt h).trans_le (v.aff hm i).1

/-- A point of the shrunk box is in the box. -/
theorem shrunk_mem (s : α) (hs : 0 < s) (hs1 : s ≤ 1) (xmin xmax p : ι → α)
    (hp : ∀ n, |p n - (xmin n + xmax n) / 2| ≤ s * ((xmax n - xmin n) / 2)) : p ∈ Box xmin xmax := by
  intro n
  have h0 : 0 ≤ s * ((xmax n - xmin n) / 2) := (abs_nonneg _).trans (hp n)
  have h1 : 0 ≤ (xmax n - xmin n) / 2 := by
    rcases le_or_gt 0 ((xmax n - xmin n) / 2) with h | h
    · exact h
    · exact absurd h0 (not_le.mpr (mul_neg_of_pos_of_neg hs h))
  have h2 : s * ((xmax n - xmin n) / 2) ≤ (xmax n - xmin n) / 2 := mul_le_of_le_one_left h1 hs1
  have h3 := abs_le.mp ((hp n).trans h2)
  constructor <;> linarith [h3.1, h3.2]

theorem convert2Mode_x (D : PertDomain X ι α) (m mf : Mode) (f : Full X ι κ α) : (convert2Mode D m mf f).x = f.x := by
  simp only [convert2Mode, Full.tighten]
  split_ifs <;> rfl

theorem convert2BackwardMode_x (D : PertDomain X ι α) (stack : (ι → α) → (ι → α) → X) (m : Mode) (inp : Full X ι ι α) (b : Back ι κ α) :
    (convert2BackwardMode D stack m inp b).x = inp.x := by
  by_cases h : m = .ibp <;> simp [convert2BackwardMode, h]

end Scores

section Nets
variable {ι κ ν α : Type} [Fintype ι] [DecidableEq ι] [Fintype κ] [Nonempty κ] [DecidableEq κ] [Field α] [LinearOrder α]
  [IsStrictOrderedRing α]

/-- C116, forward methods: the entries of the radius model built on `clone(model, method="forward-affine"/"forward-hybrid")`, in any final
mode with affine bounds.  If entry `i` is below `1 - s`, then at every point of the box shrunk by `s` output `i` of the network is above
every other one; for `s = 1`, a negative entry certifies the box.
Missing with respect to the full claim: networks with a neuron in the sliver of the ReLU hull (`C27_sliver_refuted`). -/
theorem C116_forward_partial (m mf : Mode) (hm : getAffine m = true) (hf : getAffine mf = true) (eps s : α) (he : 0 < eps) (hs : 0 < s)
    (hs1 : s ≤ 1) (slope : Slope) (xmin xmax : ι → α) (n : Net α ι κ) (hn : n.WF)
    (hsl : n.SliverOK boxDomain m eps slope (inputTensorsBox m xmin xmax)) (i : κ)
    (hneg : radiusEntry eps (convert2Mode boxDomain m mf (n.forward boxDomain m eps slope (inputTensorsBox m xmin xmax))) i < 1 - s)
    (p : ι → α) (hp : ∀ k, |p k - (xmin k + xmax k) / 2| ≤ s * ((xmax k - xmin k) / 2)) (j : κ) (hj : j ≠ i) :
    n.eval p j < n.eval p i := by
  have hx : (n.forward boxDomain m eps slope (inputTensorsBox m xmin xmax)).x = (xmin, xmax) := by
    rw [Net.forward_x]; rfl
  have hb := shrunk_mem s hs hs1 xmin xmax p hp
  have v := C27_box_partial m eps he slope xmin xmax n hn hsl p hb
  have v2 := C29_convert2Mode_valid boxDomain m mf (.inl fun h => by subst h; simp [getAffine] at hm) _ (Box xmin xmax)
    (by rw [hx]; exact boxDomain_sound xmin xmax) p hb _ v
  have e : (convert2Mode boxDomain m mf (n.forward boxDomain m eps slope (inputTensorsBox m xmin xmax))).x = (xmin, xmax) := (convert2Mode_x _ _ _ _).trans hx
  unfold radiusEntry at hneg
  rw [e] at hneg
  exact C116_shrunk eps s he hs hs1 mf hf xmin xmax _ i hneg p hp _ v2 j hj

/-- C116, method `crown-forward-affine` or `crown-forward-hybrid`: the same.  Missing: slivers, as for C28. -/
theorem C116_crown_partial (m mf : Mode) (hm : getAffine m = true) (hf : getAffine mf = true) (eps s : α) (he : 0 < eps) (hs : 0 < s)
    (hs1 : s ≤ 1) (slope : Slope) (uf : Bool) (xmin xmax : ι → α) (n : Net α ι κ) (hc : n.Chain) (hn : n.WF)
    (hsl : (boxCrown m eps slope uf xmin xmax).SliverOK n) (p : ι → α)
    (hp : ∀ k, |p k - (xmin k + xmax k) / 2| ≤ s * ((xmax k - xmin k) / 2)) :
    ∃ out, (boxCrown m eps slope uf xmin xmax).model n = .ok out ∧
      ∀ i, radiusEntry eps (convert2Mode boxDomain m mf out) i < 1 - s → ∀ j, j ≠ i → n.eval p j < n.eval p i := by
  have hb := shrunk_mem s hs hs1 xmin xmax p hp
  obtain ⟨out, h1, v⟩ := C28_box_partial m eps he slope uf xmin xmax n hc hn hsl p hb
  have hx : out.x = (xmin, xmax) := by
    unfold CrownCfg.model at h1
    cases h : ((boxCrown m eps slope uf xmin xmax).node n).first with
    | error e => simp [h, Except.map] at h1
    | ok b =>
      simp only [h, Except.map] at h1
      rw [← Except.ok.inj h1]
      exact convert2BackwardMode_x _ _ _ _ _
  refine ⟨out, h1, fun i hneg j hj => ?_⟩
  have v2 := C29_convert2Mode_valid boxDomain m mf (.inl fun h => by subst h; simp [getAffine] at hm) _ (Box xmin xmax)
    (by rw [hx]; exact boxDomain_sound xmin xmax) p hb _ v
  have e : (convert2Mode boxDomain m mf out).x = (xmin, xmax) := (convert2Mode_x _ _ _ _).trans hx
  unfold radiusEntry at hneg
  rw [e] at hneg
  exact C116_shrunk eps s he hs hs1 mf hf xmin xmax _ i hneg p hp _ v2 j hj

omit [Fintype ι] [DecidableEq ι] in
/-- C116, models whose affine bounds come from ibp bounds (method `forward-ibp`, or `crown` and `crown-forward-ibp` with as many outputs as
inputs, whatever box is put in `x`): for every `0 < s ≤ 1`, entry `i` is below `1 - s` exactly when the lower bound of output `i` is more
than `s * eps` above the upper bound of every other output. -/
theorem C116_dummy_iff (eps s : α) (he : 0 < eps) (hs : 0 < s) (hs1 : s ≤ 1) (xmin xmax : κ → α)
    (f : Full ((κ → α) × (κ → α)) κ κ α) (i : κ) :
    radiusEntry eps (crownDummy xmin xmax f) i < 1 - s ↔ ∀ j, j ≠ i → f.uc j + s * eps < f.lc i := by
  unfold radiusEntry
  rw [C116_entry_iff eps s he hs hs1]
  refine forall_congr' fun j => forall_congr' fun _ => ?_
  simp only [crownDummy, convert2ModeDummy, affEval, zero_mul, Finset.sum_const_zero, zero_add]
  refine ⟨fun h => h.1, fun h => ⟨h, fun _ _ => ?_⟩⟩
  have := mul_pos hs he
  linarith

/-- C116, method `forward-ibp` with `final_affine=True`: a negative entry certifies the label on the whole box, for every network. -/
theorem C116_forward_ibp (eps : α) (he : 0 < eps) (slope : Slope) (xmin xmax : ι → α) (n : Net α ι κ) (hn : n.WF) (i : κ)
    (hneg : radiusEntry eps (convert2ModeDummy (n.forward boxDomain .ibp eps slope (inputTensorsBox .ibp xmin xmax))) i < 0)
    (p : ι → α) (hp : p ∈ Box xmin xmax) (j : κ) (hj : j ≠ i) : n.eval p j < n.eval p i := by
  have v := C27_box_ibp eps he slope xmin xmax n hn p hp
  unfold radiusEntry at hneg
  have h := ((C45_radius_iff eps he _ _ _ i).mp hneg j hj).1
  simp only [convert2ModeDummy, affEval, zero_mul, Finset.sum_const_zero, zero_add] at h
  linarith [(v j).2, (v i).1]

omit [DecidableEq κ] [Nonempty κ] in
/-- The matrix of margins against label `s`. -/
theorem margin_sum [DecidableEq κ] (y : κ → α) (s j : κ) :
    ∑ k, y k * ((if k = j then 1 else 0) - if k = s then 1 else 0) = y j - y s := by
  simp [mul_sub, Finset.sum_sub_distrib]

/-- C116, backward bounds: `clone(model, method="crown-forward-affine" or "crown-forward-hybrid", back_bounds=[C])` where column `j` of `C`
is the margin of label `j` over label `s`.  Only entry `s` can be negative, and then label `s` is above every other label on the whole box.
Missing: slivers, as for C30. -/
theorem C116_backward_partial (m mf : Mode) (hm : getAffine m = true) (hf : getAffine mf = true) (eps : α) (he : 0 < eps) (slope : Slope)
    (uf : Bool) (xmin xmax : ι → α) (n : Net α ι κ) (hc : n.Chain) (hn : n.WF) (hsl : (boxCrown m eps slope uf xmin xmax).SliverOK n)
    (s : κ) (p : ι → α) (hp : p ∈ Box xmin xmax) :
    ∃ out, (boxCrown m eps slope uf xmin xmax).modelBack n (fun k j => (if k = j then 1 else 0) - if k = s then 1 else 0) = .ok out ∧
      ∀ i, radiusEntryBackward eps (convert2Mode boxDomain m mf out) i < 0 → i = s ∧ ∀ j, j ≠ s → n.eval p j < n.eval p s := by
  obtain ⟨out, h1, v⟩ := C30_back_bounds_partial (boxCrown m eps slope uf xmin xmax) he (Box xmin xmax) (boxDomain_sound xmin xmax)
    (boxCrown_stack m eps slope uf xmin xmax) n hc hn hsl (fun k j => (if k = j then 1 else 0) - if k = s then 1 else 0) p hp
    (C27_input_box m xmin xmax p hp)
  have hx : out.x = (xmin, xmax) := by
    unfold CrownCfg.modelBack at h1
    cases h : ((boxCrown m eps slope uf xmin xmax).node n).next κ
      ⟨fun k j => (if k = j then 1 else 0) - if k = s then 1 else 0, fun _ => 0,
        fun k j => (if k = j then 1 else 0) - if k = s then 1 else 0, fun _ => 0⟩ with
    | error e => simp [h, Except.map] at h1
    | ok b =>
      simp only [h, Except.map] at h1
      rw [← Except.ok.inj h1]
      exact convert2BackwardMode_x _ _ _ _ _
  refine ⟨out, h1, fun i hneg => ?_⟩
  have v2 := C29_convert2Mode_valid boxDomain m mf (.inl fun h => by subst h; simp [getAffine] at hm) _ (Box xmin xmax)
    (by rw [hx]; exact boxDomain_sound xmin xmax) p hp _ v
  simp only [margin_sum] at v2
  have e : (convert2Mode boxDomain m mf out).x = (xmin, xmax) := (convert2Mode_x _ _ _ _).trans hx
  unfold radiusEntryBackward at hneg
  rw [e] at hneg
  have h := fun j hj => C45_radius_backward eps he mf hf xmin xmax _ i j hj hneg p hp _ v2
  have hi : i = s := by
    by_contra hne
    have := h s (Ne.symm hne)
    simp at this
  subst hi
  exact ⟨rfl, fun j hj => by linarith [h j hj]⟩

end Nets

/-! ### Which models can be built and run -/

/-- C116: on a model returned by `clone`, `build_radius_robust_model` succeeds exactly when the final mode has affine bounds and the domain
is a box; otherwise it raises `NotImplementedError`. -/
theorem C116_build_iff (pre : Except PyErr Unit) (run : ConvertTrace → Except PyErr Unit) (a : CloneArgs) (r : CloneResult)
    (hr : clone pre run a = .ok r) :
    ((∃ q, buildRadius r = .ok q ∧ q.backward = decide (0 < a.nBackBounds)) ↔
      (r.affine = true ∨ r.ibp = false) ∧ (a.domain = .default ∨ a.domain = .box)) ∧
    (buildRadius r = .error .notImplemented ↔ ¬ ((r.affine = true ∨ r.ibp = false) ∧ (a.domain = .default ∨ a.domain = .box))) := by
  obtain ⟨m, n, t, -, -, -, rfl⟩ := clone_inv hr
  dsimp only
  generalize a.finalIbp.getD _ = i
  generalize a.finalAffine.getD _ = f
  have hd : (a.domain.resolve = .box) ↔ (a.domain = .default ∨ a.domain = .box) := by
    cases a.domain <;> simp [DomArg.resolve]
  have hd2 : a.domain.resolve.resolve = a.domain.resolve := by cases a.domain <;> rfl
  have hb : DomArg.box.resolve = .box := rfl
  rw [← hd]
  cases i <;> cases f <;> by_cases h : a.domain.resolve = .box <;>
    simp [buildRadius, radiusInit, getMode, hd2, h, hb, bind, Except.bind, pure, Except.pure]

/-- C116: with the default final mode, `crown`, `crown-forward-ibp` and `forward-ibp` (so `clone(model)` without further arguments) give
models on which `build_radius_robust_model` raises. -/
theorem C116_default_refuted (pre : Except PyErr Unit) (run : ConvertTrace → Except PyErr Unit) (a : CloneArgs)
    (hm : a.method = "crown" ∨ a.method = "crown-forward-ibp" ∨ a.method = "forward-ibp") (hi : a.finalIbp = none)
    (hf : a.finalAffine = none) (r : CloneResult) (hr : clone pre run a = .ok r) : buildRadius r = .error .notImplemented := by
  obtain ⟨m, n, t, e1, -, -, rfl⟩ := clone_inv hr
  have : ibpAffineOfMethod m = (true, false) := by
    rcases hm with h | h | h <;> rw [h] at e1
    · rw [show methodOfString "crown" = .ok .crown from by decide +kernel] at e1
      rw [← Except.ok.inj e1]; decide
    · rw [show methodOfString "crown-forward-ibp" = .ok .crownForwardIbp from by decide +kernel] at e1
      rw [← Except.ok.inj e1]; decide
    · rw [show methodOfString "forward-ibp" = .ok .forwardIbp from by decide +kernel] at e1
      rw [← Except.ok.inj e1]; decide
  simp [buildRadius, radiusInit, getMode, hi, hf, this, bind, Except.bind]

/-- C116: the layer unpacks the tensors of one output in its mode, and raises on any other number of tensors (two outputs, or a DC
decomposition). -/
theorem C116_unpack {τ : Type} (m : Mode) (hm : getAffine m = true) (t : Nine τ) :
    radiusUnpack m (extractForMode m false t) = .ok (t.x, t.wu, t.bu, t.wl, t.bl) ∧
    radiusUnpack m (extractForMode m true t) = .error .valueError ∧
    ∀ l : List τ, l.length ≠ nbTensors m false → radiusUnpack m l = .error .valueError := by
  cases m with
  | ibp => simp [getAffine] at hm
  | affine =>
    refine ⟨rfl, rfl, fun l h => ?_⟩
    unfold radiusUnpack
    split <;> simp_all [nbTensors]
  | hybrid =>
    refine ⟨rfl, rfl, fun l h => ?_⟩
    unfold radiusUnpack
    split <;> simp_all [nbTensors]

/-- C116: with `crown` or `crown-forward-ibp` and `final_affine=True` the model is built, but running it raises exactly when the numbers of
inputs and outputs differ and neither is 1. -/
theorem C116_crown_ibp_refuted (nIn nOut : ℕ) :
    radiusShape ((dummyShapes nIn nOut).1.getD 1 0) ((dummyShapes nIn nOut).2.getD 0 0) =
      if nOut ≠ nIn ∧ nOut ≠ 1 ∧ nIn ≠ 1 then .error .valueError else .ok () := by
  by_cases h : nOut = nIn <;> by_cases h1 : nOut = 1 <;> by_cases h2 : nIn = 1 <;> simp [radiusShape, dummyShapes, h, h1, h2]

/-! ### Examples -/

/-- Two outputs `x + 3`, `-x`. -/
def twoLogits : Net ℚ (Fin 1) (Fin 2) := .layer .input (.dense (fun _ j => if j = 0 then 1 else -1) fun j => if j = 0 then 3 else 0)

/-- Non-vacuity of C116, forward methods: on `[-1, 1]` entry 0 is `-1/2`, so label 0 is certified; on `[-2, 2]` it is `1/4`, so label 0 is
certified on any smaller fraction than `3/4` of the box (`x + 3 > -x` for `x > -3/2`); entry 1 is not negative. -/
example (m : Mode) (hm : m ≠ .ibp) : twoLogits.WF ∧
    (∀ a, twoLogits.SliverOK boxDomain m (1 / 10000000) .vSlope (inputTensorsBox m (fun _ => -a) (fun _ => a))) ∧
    radiusEntry (1 / 10000000) (convert2Mode boxDomain m .affine
      (twoLogits.forward boxDomain m (1 / 10000000) .vSlope (inputTensorsBox m (fun _ => -1) (fun _ => 1)))) 0 = -1 / 2 ∧
    radiusEntry (1 / 10000000) (convert2Mode boxDomain m .affine
      (twoLogits.forward boxDomain m (1 / 10000000) .vSlope (inputTensorsBox m (fun _ => -2) (fun _ => 2)))) 0 = 1 / 4 ∧
    0 ≤ radiusEntry (1 / 10000000) (convert2Mode boxDomain m .affine
      (twoLogits.forward boxDomain m (1 / 10000000) .vSlope (inputTensorsBox m (fun _ => -1) (fun _ => 1)))) 1 := by
  refine ⟨by simp [twoLogits, Net.WF, Lay.WF], fun a => ⟨trivial, trivial⟩, ?_⟩
  cases m with
  | ibp => exact absurd rfl hm
  | affine => decide +kernel
  | hybrid => decide +kernel

/-- Non-vacuity of C116, backward methods, with and without backward bounds. -/
example (m : Mode) (uf : Bool) : twoLogits.Chain ∧ (boxCrown m (1 / 10000000) .vSlope uf (fun _ => -1) (fun _ => 1)).SliverOK twoLogits := by
  refine ⟨trivial, ⟨trivial, fun _ _ => trivial, ?_⟩⟩
  intro _; trivial

/-- Non-vacuity of C116, method `forward-ibp`: on `[-1, 1]` the bounds are `[2, 4]` and `[-1, 1]`. -/
example : radiusEntry (1 / 10000000) (convert2ModeDummy
    (twoLogits.forward boxDomain .ibp (1 / 10000000) .vSlope (inputTensorsBox .ibp (fun _ => -1) (fun _ => 1)))) 0 < 0 := by
  decide +kernel

/-- Non-vacuity of C116: a model on which `build_radius_robust_model` succeeds, and one on which it raises. -/
example : (∃ r q, clone (.ok ()) (fun _ => .ok ()) { CloneArgs.ofModel ⟨.functional, [[none, some 3]]⟩ with finalAffine := some true } = .ok r ∧
      buildRadius r = .ok q) ∧
    ∃ r, clone (.ok ()) (fun _ => .ok ()) (CloneArgs.ofModel ⟨.functional, [[none, some 3]]⟩) = .ok r ∧
      buildRadius r = .error .notImplemented := ⟨⟨_, _, rfl, rfl⟩, _, rfl, rfl⟩

end Decomon
