import Verif.Model.CrossEntropy
import Verif.Props.Metrics
import Verif.Props.Network

/-! Property C99: the cross-entropy models and the perturbation domain. -/

namespace Decomon

section
variable {ι κ : Type} [Fintype ι] [Fintype κ] [Nonempty κ]

theorem convert_ibp_const {X : Type} (D : PertDomain X ι ℝ) (m : Mode) (f : Full X ι κ ℝ) (S : Set (ι → ℝ)) (hD : m ≠ .ibp → D.Sound f.x S)
    (p : ι → ℝ) (hp : p ∈ S) (y : κ → ℝ) (v : Valid m false f p y) (k : κ) :
    (convert2Mode D m .ibp f).lc k ≤ y k ∧ y k ≤ (convert2Mode D m .ibp f).uc k := by
  cases m with
  | ibp => simpa [convert2Mode, getIbp, Full.tighten] using v.const rfl k
  | affine =>
    have := tighten_const D .affine false f S (hD (by simp)) p hp y v k
    simpa [convert2Mode, getIbp, Full.tighten] using this
  | hybrid =>
    have := tighten_const D .hybrid false f S (hD (by simp)) p hp y v k
    simpa [convert2Mode, getIbp, Full.tighten] using this

/-- C99, box: in every mode, at every point of the box, the cross-entropy of label `i` is at most entry `i` of the cross-entropy model, and
every margin of another label is at most entry `i` of the asymptotic model. -/
theorem C99_box [DecidableEq κ] (m : Mode) (xmin xmax : ι → ℝ) (f : Full ((ι → ℝ) × (ι → ℝ)) ι κ ℝ) (hx : f.x = (xmin, xmax)) (p : ι → ℝ)
    (hp : p ∈ Box xmin xmax) (y : κ → ℝ) (v : Valid m false f p y) (i : κ) :
    - y i + Real.log (∑ j, Real.exp (y j)) ≤ crossEntropyBox m f i ∧ ∀ j, j ≠ i → y j - y i ≤ asymptoticBox m f i := by
  have hc := convert_ibp_const boxDomain m f (Box xmin xmax) (fun _ => by rw [hx]; exact boxDomain_sound xmin xmax) p hp y v
  exact ⟨(C44_fusion_sound _ _ y hc i).1, fun j hj => (C78_asymptotic _ _ y hc i j hj).1⟩

/-- C99, ball, ibp mode: the same.  Missing with respect to the full claim: affine and hybrid mode (`C99_ball_refuted`). -/
theorem C99_ball_ibp_partial [DecidableEq κ] {n : ℕ} (f : Full (Fin (n + 2) → ℝ) (Fin (n + 2)) κ ℝ) (p : Fin (n + 2) → ℝ) (y : κ → ℝ)
    (v : Valid .ibp false f p y) (i : κ) :
    - y i + Real.log (∑ j, Real.exp (y j)) ≤ crossEntropyBall .ibp f i ∧ ∀ j, j ≠ i → y j - y i ≤ asymptoticBall .ibp f i := by
  have hc := convert_ibp_const boxOfCentre .ibp f {p} (fun h => absurd rfl h) p rfl y v
  exact ⟨(C44_fusion_sound _ _ y hc i).1, fun j hj => (C78_asymptotic _ _ y hc i j hj).1⟩

end

/-- The point of the ball around zero used as witness: `-eps` on the first coordinate. -/
def ballCorner {n : ℕ} (eps : ℝ) : Fin (n + 2) → ℝ := fun k => if k = 0 then -eps else 0

theorem ballCorner_mem {n : ℕ} (eps : ℝ) (he : 0 < eps) (q : PVal) (hq : q = .inf ∨ q = .fin 1 ∨ q = .fin 2) :
    (ballCorner eps : Fin (n + 2) → ℝ) ∈ LpBall 0 eps q := by
  have h1 : ∀ k : Fin (n + 2), |ballCorner eps k - (0 : Fin (n + 2) → ℝ) k| = if k = 0 then eps else 0 := by
    intro k
    unfold ballCorner
    split <;> simp [abs_of_pos he]
  have h2 : ∀ k : Fin (n + 2), (ballCorner eps k - (0 : Fin (n + 2) → ℝ) k) ^ 2 = if k = 0 then eps ^ 2 else 0 := by
    intro k
    unfold ballCorner
    split <;> simp
  rcases hq with rfl | rfl | rfl
  · left
    refine ⟨rfl, fun k => ?_⟩
    rw [h1]; split <;> linarith
  · right; left
    refine ⟨rfl, ?_⟩
    rw [Finset.sum_congr rfl fun k _ => h1 k]; simp
  · right; right
    refine ⟨rfl, he.le, ?_⟩
    rw [Finset.sum_congr rfl fun k _ => h2 k]; simp

theorem centre_zero_bounds {n : ℕ} (m : Mode) (hm : m ≠ .ibp) (eps : ℝ) (q : PVal) (k : Fin (n + 2)) :
    (convert2Mode boxOfCentre m .ibp (inputTensorsBall m eps q (0 : Fin (n + 2) → ℝ))).uc k ≤ 0 ∧
    0 ≤ (convert2Mode boxOfCentre m .ibp (inputTensorsBall m eps q (0 : Fin (n + 2) → ℝ))).lc k := by
  cases m with
  | ibp => exact absurd rfl hm
  | affine => simp [convert2Mode, getIbp, Full.tighten, boxOfCentre, getUpperBox, getLowerBox, inputTensorsBall]
  | hybrid => simp [convert2Mode, getIbp, Full.tighten, boxOfCentre, getUpperBox, getLowerBox, inputTensorsBall]

/-- C99, ball, affine and hybrid mode, for every number `n + 2` of inputs, radius and norm: on the identity network around zero the
cross-entropy model returns at most `log (n + 2)`, the cross-entropy at the centre, and the asymptotic model at most 0, although the point
`-eps` on the first coordinate has a larger cross-entropy and a positive margin. -/
theorem C99_ball_refuted {n : ℕ} (m : Mode) (hm : m ≠ .ibp) (eps : ℝ) (he : 0 < eps) (q : PVal)
    (hq : q = .inf ∨ q = .fin 1 ∨ q = .fin 2) :
    let f := inputTensorsBall m eps q (0 : Fin (n + 2) → ℝ)
    let p : Fin (n + 2) → ℝ := ballCorner eps
    p ∈ LpBall 0 eps q ∧ (∀ z ∈ LpBall 0 eps q, Valid m false f z z) ∧
    crossEntropyBall m f 0 < - p 0 + Real.log (∑ j, Real.exp (p j)) ∧ asymptoticBall m f 0 < p 1 - p 0 := by
  intro f p
  have hb := centre_zero_bounds (n := n) m hm eps q
  have p0 : p 0 = -eps := by simp [p, ballCorner]
  have p1 : p 1 = 0 := by simp [p, ballCorner]
  refine ⟨ballCorner_mem eps he q hq, fun z hz => C27_input_ball m eps q 0 z hz, ?_, ?_⟩
  · have h1 : crossEntropyBall m f 0 ≤ Real.log (n + 2) := by
      unfold crossEntropyBall
      rw [fusionCall_eq]
      have : Real.log (∑ j, Real.exp ((convert2Mode boxOfCentre m .ibp f).uc j)) ≤ Real.log (n + 2) := by
        refine Real.log_le_log (Finset.sum_pos (fun _ _ => Real.exp_pos _) Finset.univ_nonempty) ?_
        calc ∑ j, Real.exp ((convert2Mode boxOfCentre m .ibp f).uc j) ≤ ∑ _j : Fin (n + 2), (1 : ℝ) :=
              Finset.sum_le_sum fun j _ => by rw [← Real.exp_zero]; exact Real.exp_le_exp.mpr (hb j).1
          _ = n + 2 := by simp
      linarith [(hb 0).2]
    refine h1.trans_lt ?_
    have e : - p 0 + Real.log (∑ j, Real.exp (p j)) = Real.log (Real.exp eps * ∑ j, Real.exp (p j)) := by
      rw [Real.log_mul (Real.exp_pos _).ne' (Finset.sum_pos (fun _ _ => Real.exp_pos _) Finset.univ_nonempty).ne', Real.log_exp, p0]
      ring
    rw [e]
    have hs : ∑ j, Real.exp (p j) = Real.exp (-eps) + (n + 1) := by
      rw [Fin.sum_univ_succ, p0]
      have : ∀ j : Fin (n + 1), Real.exp (p j.succ) = 1 := by
        intro j; simp [p, ballCorner, Fin.succ_ne_zero]
      simp [this]
    refine Real.log_lt_log (by positivity) ?_
    rw [hs, mul_add, ← Real.exp_add]
    have : 1 < Real.exp eps := Real.one_lt_exp_iff.mpr he
    have h0 : (0 : ℝ) ≤ n := Nat.cast_nonneg n
    simp only [add_neg_cancel, Real.exp_zero]
    nlinarith
  · have hz : ∀ k : Fin (n + 2), (fun k => if k = 0 then (1 : ℝ) else 0) k = 0 ∨ (fun k => if k = 0 then (1 : ℝ) else 0) k = 1 := by
      intro k; by_cases hk : k = 0 <;> simp [hk]
    obtain ⟨t, s, -, -, e⟩ := (lossMask_spec (fun t s => (convert2Mode boxOfCentre m .ibp f).uc t - (convert2Mode boxOfCentre m .ibp f).lc s)
      (fun k => if k = 0 then (1 : ℝ) else 0) hz).2 ⟨1, by simp⟩ ⟨0, by simp⟩
    unfold asymptoticBall fusionAsymptotic
    rw [e, p0, p1]
    refine max_lt ?_ (by linarith)
    linarith [(hb t).1, (hb s).2]

/-- C99, ball, every mode: the two models read the first two coordinates of the centre only, whatever the number of inputs. -/
theorem C99_ball_coords {n : ℕ} {κ : Type} [Fintype κ] [Nonempty κ] [DecidableEq κ] (m : Mode) (f : Full (Fin (n + 2) → ℝ) (Fin (n + 2)) κ ℝ)
    (x : Fin (n + 2) → ℝ) (h0 : x 0 = f.x 0) (h1 : x 1 = f.x 1) (i : κ) :
    crossEntropyBall m { f with x := x } i = crossEntropyBall m f i ∧ asymptoticBall m { f with x := x } i = asymptoticBall m f i := by
  have e : (convert2Mode boxOfCentre m .ibp { f with x := x }).uc = (convert2Mode boxOfCentre m .ibp f).uc ∧
      (convert2Mode boxOfCentre m .ibp { f with x := x }).lc = (convert2Mode boxOfCentre m .ibp f).lc := by
    cases m <;> simp [convert2Mode, Full.tighten, boxOfCentre, getIbp, h0, h1]
  unfold crossEntropyBall asymptoticBall
  rw [e.1, e.2]
  exact ⟨rfl, rfl⟩

/-- Non-vacuity: around the origin and around `(0, 0, 5)` the same value is returned. -/
example : crossEntropyBall .affine { inputTensorsBall .affine 1 (.fin 2) (0 : Fin 3 → ℝ) with x := ![0, 0, 5] } 2 =
    crossEntropyBall .affine (inputTensorsBall .affine 1 (.fin 2) (0 : Fin 3 → ℝ)) 2 :=
  (C99_ball_coords (n := 1) .affine _ ![0, 0, 5] rfl rfl 2).1

/-- Non-vacuity of C99: a box around zero and a ball of radius 1 in the norm 2, two inputs, identity network. -/
example : (Valid .affine false (inputTensorsBall .affine 1 (.fin 2) (0 : Fin 2 → ℝ)) 0 0) ∧
    crossEntropyBall .affine (inputTensorsBall .affine 1 (.fin 2) (0 : Fin 2 → ℝ)) 0 <
      - ballCorner (n := 0) 1 0 + Real.log (∑ j, Real.exp (ballCorner (n := 0) 1 j)) :=
  have h := C99_ball_refuted (n := 0) .affine (by simp) 1 one_pos (.fin 2) (by simp)
  ⟨h.2.1 0 (by right; right; simp), h.2.2.1⟩

end Decomon
