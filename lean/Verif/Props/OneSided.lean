import Verif.Model.OneSided
import Verif.Lemmas.Cross
import Verif.Props.Wrapper

/-! Theorems about `get_upper_box`, `get_lower_box`, `get_upper_noise`, `get_lower_noise` (C122). -/

namespace Decomon

section
variable {n : ℕ} {X α : Type} [Field α] [LinearOrder α] [IsStrictOrderedRing α]

theorem forall₂_regroup {τ τ' : Type*} {R : τ → τ' → Prop} (k : ℕ) {l : List τ} {l' : List τ'} (h : List.Forall₂ R l l') :
    List.Forall₂ (List.Forall₂ R) (regroup k l) (regroup k l') := by
  unfold regroup
  rw [h.length_eq, List.forall₂_map_left_iff, List.forall₂_map_right_iff]
  refine List.forall₂_same.2 fun i _ => ?_
  unfold pySlice
  exact List.forall₂_drop _ (List.forall₂_take _ h)

theorem listMin_le_listMax {l u : List α} (h : List.Forall₂ (· ≤ ·) l u) : listMin l ≤ listMax u := by
  cases h with
  | nil => exact le_rfl
  | cons ha _ => exact (listMin_le List.mem_cons_self).trans (ha.trans (le_listMax List.mem_cons_self))

theorem forall₂_flatRows {d : ℕ} {τ : Type*} (f g : τ → Fin d → α) (xs : List τ) (h : ∀ x ∈ xs, ∀ k, f x k ≤ g x k) :
    List.Forall₂ (· ≤ ·) (flatRows (xs.map f)) (flatRows (xs.map g)) := by
  induction xs with
  | nil => exact List.Forall₂.nil
  | cons a t ih =>
    simp only [flatRows, List.map_cons, List.flatMap_cons]
    refine List.rel_append ?_ (ih fun x hx => h x (List.mem_cons_of_mem _ hx))
    rw [List.forall₂_iff_get]
    simp only [List.length_ofFn, List.get_eq_getElem, List.getElem_ofFn, true_and]
    exact fun i hi _ => h a List.mem_cons_self _

/-- C122: whenever the two functions return, and the bounds of every box (sub-box, when `n_sub_boxes` is larger than one) are valid for
some function, no lower bound exceeds the upper bound at the same place, for any number of outputs, of samples, of sub-boxes, and any
`batch_size`.  Missing with respect to the full claim: converted networks whose bounds are not valid, refuted below. -/
theorem C122_box_ordered_partial {d : ℕ} (net : BoxOf (Fin (n + 1)) α → Full X (Fin (n + 1)) (Fin d) α) (m : Mode) (F : (Fin (n + 1) → α) → Fin d → α)
    (batch batch' nSub : ℕ) (bs : List (BoxOf (Fin (n + 1)) α)) (hb : ∀ b ∈ bs, ∀ i, b.1 i ≤ b.2 i) (hs : SoundOn net m F (subBoxes nSub bs).1) :
    ∃ us ls, upperOfBox net m batch nSub bs = .ok us ∧ lowerOfBox net m batch' nSub bs = .ok ls ∧ List.Forall₂ (· ≤ ·) ls us := by
  unfold upperOfBox lowerOfBox
  rw [C34_batch_size net m batch' batch nSub bs, getRangeBox_eq net m batch nSub bs hb]
  have key : List.Forall₂ (· ≤ ·) (flatRows ((subBoxes nSub bs).1.map fun b => rangeLower m b (net b)))
      (flatRows ((subBoxes nSub bs).1.map fun b => rangeUpper m b (net b))) := by
    refine forall₂_flatRows _ _ _ fun b hbs k => ?_
    have hg := subBoxes_good nSub bs hb b hbs
    have hp : b.1 ∈ Box b.1 b.2 := fun i => ⟨le_rfl, hg i⟩
    have := range_sound m b (net b) b.1 hp (F b.1) (hs b hbs b.1 hp) k
    exact this.1.trans this.2
  dsimp only
  split
  · rename_i h
    split at h
    · cases h
    · cases h
  · rename_i r h
    split at h
    · cases h
      refine ⟨_, _, rfl, rfl, ?_⟩
      rw [List.forall₂_map_left_iff, List.forall₂_map_right_iff]
      exact (forall₂_regroup _ key).imp fun _ _ => listMin_le_listMax
    · cases h
      exact ⟨_, _, rfl, rfl, key⟩

/-- C122: the two functions raise together, and the same exception as `get_range_box`; when they return, they return its two arrays. -/
theorem C122_box_halves {d : ℕ} (net : BoxOf (Fin (n + 1)) α → Full X (Fin (n + 1)) (Fin d) α) (m : Mode) (batch nSub : ℕ)
    (bs : List (BoxOf (Fin (n + 1)) α)) :
    (upperOfBox net m batch nSub bs = .error .userWarning ↔ ∃ b ∈ bs, ∃ i, b.2 i < b.1 i) ∧
      (lowerOfBox net m batch nSub bs = .error .userWarning ↔ ∃ b ∈ bs, ∃ i, b.2 i < b.1 i) ∧
      ∀ us ls, (upperOfBox net m batch nSub bs = .ok us ∧ lowerOfBox net m batch nSub bs = .ok ls) ↔ getRangeBox net m batch nSub bs = .ok (us, ls) := by
  have h := C34_empty_box net m batch nSub bs
  unfold upperOfBox lowerOfBox
  cases e : getRangeBox net m batch nSub bs with
  | error x =>
    rw [e] at h
    exact ⟨by simpa using h, by simpa using h, fun us ls => by simp⟩
  | ok r =>
    rw [e] at h
    exact ⟨by simpa using h, by simpa using h, fun us ls => by simp [Prod.ext_iff]⟩

end

section
variable {ι κ X : Type} [Fintype ι] [Nonempty ι]

/-- C122: the same for balls with `p = 1, 2, inf` and `eps ≥ 0`.  Missing: as above, and negative `eps`, refuted below. -/
theorem C122_noise_ordered_partial (net : (ι → ℝ) → Full X ι κ ℝ) (m : Mode) (eps : ℝ) (he : 0 ≤ eps) (q : PVal)
    (hq : q = .inf ∨ q = .fin 1 ∨ q = .fin 2) (x : ι → ℝ) (F : (ι → ℝ) → κ → ℝ) (hv : ∀ p ∈ LpBall x eps q, Valid m false (net x) p (F p)) (k : κ) :
    ∃ u l, upperOfNoise net m eps q x k = .ok u ∧ lowerOfNoise net m eps q x k = .ok l ∧ l ≤ u := by
  obtain ⟨u, l, h1, h2, h⟩ := C39_noise_sound_partial m eps q x (net x) F hq hv k
  have hx : x ∈ LpBall x eps q := by
    rcases hq with rfl | rfl | rfl <;> simp [LpBall, he]
  exact ⟨u, l, by simp only [upperOfNoise, noiseRow, h1, h2], by simp only [lowerOfNoise, noiseRow, h1, h2], (h x hx).1.trans (h x hx).2⟩

/-- C122: with another `p` both raise `ValueError`. -/
theorem C122_noise_other_p (net : (ι → ℝ) → Full X ι κ ℝ) (m : Mode) (eps : ℝ) (q : PVal) (hq : q ≠ .inf ∧ q ≠ .fin 1 ∧ q ≠ .fin 2)
    (x : ι → ℝ) (k : κ) : upperOfNoise net m eps q x k = .error .valueError ∧ lowerOfNoise net m eps q x k = .error .valueError := by
  simp [upperOfNoise, lowerOfNoise, noiseRow, noiseUpper, noiseLower, dualNorm, hq.1, hq.2.1, hq.2.2]

end

/-- C122: with a negative `eps` the two values returned for the identity are `z + eps` and `z - eps`. -/
theorem C122_negative_eps_refuted (eps z : ℝ) (he : eps < 0) :
    ∃ f : Full Unit (Fin 1) (Fin 1) ℝ, (∀ p, Valid .affine false f p p) ∧
      ∃ u l, upperOfNoise (fun _ => f) .affine eps .inf (fun _ => z) 0 = .ok u ∧ lowerOfNoise (fun _ => f) .affine eps .inf (fun _ => z) 0 = .ok l ∧
        u < l := by
  refine ⟨⟨(), fun _ => 0, fun _ _ => 1, fun _ => 0, fun _ => 0, fun _ _ => 1, fun _ => 0, fun _ => 0, fun _ => 0⟩, fun p => ?_, ?_⟩
  · refine ⟨by simp [getIbp], fun _ k => ?_, by simp⟩
    rw [Subsingleton.elim k 0]
    simp [affEval]
  · refine ⟨_, _, by simp [upperOfNoise, noiseRow, noiseUpper, noiseLower, dualNorm]; rfl,
      by simp [lowerOfNoise, noiseRow, noiseUpper, noiseLower, dualNorm]; rfl, ?_⟩
    simp
    linarith

/-- C122: end to end for `forward-ibp`: any network, any boxes. -/
theorem C122_ibp_ordered {n d : ℕ} {α : Type} [Field α] [LinearOrder α] [IsStrictOrderedRing α] (N : Net α (Fin (n + 1)) (Fin d)) (hN : N.WF)
    (eps : α) (he : 0 < eps) (s : Slope) (batch nSub : ℕ) (bs : List (BoxOf (Fin (n + 1)) α)) (hb : ∀ b ∈ bs, ∀ i, b.1 i ≤ b.2 i) :
    ∃ us ls, upperOfBox (N.onBox .ibp eps s) .ibp batch nSub bs = .ok us ∧ lowerOfBox (N.onBox .ibp eps s) .ibp batch nSub bs = .ok ls ∧
      List.Forall₂ (· ≤ ·) ls us :=
  C122_box_ordered_partial _ _ (fun p => N.eval p) _ _ _ _ hb fun b _ p hp =>
    ⟨fun _ k => C27_box_ibp eps he s b.1 b.2 N hN p hp k, by simp [getAffine], by simp⟩

/-- C122 is false for `forward-affine` and `forward-hybrid`: for every `T` there is a network whose lower bound on `[-1e-9, 1e-9]` exceeds
its upper bound by `T`. -/
theorem C122_forward_refuted (m : Mode) (hm : m ≠ .ibp) (T : ℚ) :
    ∃ (N : Net ℚ (Fin 1) (Fin 1)) (u l : ℚ), N.WF ∧ upperOfBox (N.onBox m (1 / 10000000) .vSlope) m 0 1 [crossBox] = .ok [u] ∧
      lowerOfBox (N.onBox m (1 / 10000000) .vSlope) m 0 1 [crossBox] = .ok [l] ∧ T ≤ l - u := by
  have hK : 0 ≤ max 0 T * 2000000000 := by positivity
  have key : rangeUpper m crossBox ((crossNet (max 0 T * 2000000000)).onBox m (1 / 10000000) .vSlope crossBox) 0 =
      (max 0 T * 2000000000) * (3 / 100000000000) ∧
      rangeLower m crossBox ((crossNet (max 0 T * 2000000000)).onBox m (1 / 10000000) .vSlope crossBox) 0 = (max 0 T * 2000000000) / 1000000000 := by
    cases m with
    | ibp => exact absurd rfl hm
    | affine => exact cross_affine _ hK
    | hybrid => exact cross_hybrid _ hK
  have e := getRangeBox_eq ((crossNet (max 0 T * 2000000000)).onBox m (1 / 10000000) .vSlope) m 0 1 [crossBox]
    (by simp [GoodBox, crossBox]; norm_num)
  simp only [subBoxes, lt_irrefl, if_false, List.map_cons, List.map_nil, flatRows, List.flatMap_cons, List.flatMap_nil, List.ofFn_succ,
    List.ofFn_zero, List.append_nil, key.1, key.2] at e
  refine ⟨crossNet (max 0 T * 2000000000), _, _, ?_, by unfold upperOfBox; rw [e], by unfold lowerOfBox; rw [e], ?_⟩
  · simp [crossNet, crossMid, crossPre, Net.WF, Lay.WF]
  · have := le_max_right 0 T
    have := le_max_left 0 T
    linarith

/-- C122 is false for `crown` in every mode of the output, `crown-forward-ibp` among others. -/
theorem C122_crown_refuted (m : Mode) (uf : Bool) (T : ℚ) :
    ∃ (N : Net ℚ (Fin 1) (Fin 1)) (out : Full (BoxOf (Fin 1) ℚ) (Fin 1) (Fin 1) ℚ), N.WF ∧
      (boxCrown m (1 / 10000000) .vSlope uf crossBox.1 crossBox.2).model N = .ok out ∧ T ≤ rangeLower m crossBox out 0 - rangeUpper m crossBox out 0 := by
  have hK : 0 ≤ max 0 T * 2000000000 := by positivity
  obtain ⟨out, h1, h2, h3⟩ := cross_crown m uf _ hK
  refine ⟨_, out, ?_, h1, ?_⟩
  · simp [crossNet, crossMid, crossPre, Net.WF, Lay.WF]
  · rw [h2, h3]
    have := le_max_right 0 T
    have := le_max_left 0 T
    linarith

/-- C122 for `relu(x) - relu(-x)` in interval mode with three sub-boxes, and an empty box. -/
example : ∃ us ls, let N : Net ℚ (Fin 1) (Fin 1) := .layer (.layer (.layer .input (.dense (fun _ => ![1, -1]) (fun _ => 0) : Lay ℚ (Fin 1) (Fin 2)))
      (.relu (fun _ => 1) (fun _ => 1))) (.dense ![fun _ => 1, fun _ => -1] (fun _ => 0))
    upperOfBox (N.onBox .ibp 1 .vSlope) .ibp 2 3 [(fun _ => -1, fun _ => 1), (fun _ => 2, fun _ => 2)] = .ok us ∧
      lowerOfBox (N.onBox .ibp 1 .vSlope) .ibp 2 3 [(fun _ => -1, fun _ => 1), (fun _ => 2, fun _ => 2)] = .ok ls ∧ List.Forall₂ (· ≤ ·) ls us :=
  C122_ibp_ordered (.layer (.layer (.layer .input (.dense (fun _ => ![1, -1]) (fun _ => 0) : Lay ℚ (Fin 1) (Fin 2)))
      (.relu (fun _ => 1) (fun _ => 1))) (.dense ![fun _ => 1, fun _ => -1] (fun _ => 0))) (by exact ⟨⟨⟨trivial, trivial⟩, fun _ => by norm_num⟩, trivial⟩) 1 one_pos .vSlope 2 3 _ (by decide +kernel)

example (net : BoxOf (Fin 1) ℚ → Full Unit (Fin 1) (Fin 2) ℚ) (m : Mode) : upperOfBox net m 1 2 [(fun _ => 0, fun _ => 1), (fun _ => 3, fun _ => 2)] = .error .userWarning :=
  (C122_box_halves net m 1 2 _).1.mpr ⟨(fun _ => 3, fun _ => 2), by simp, 0, by norm_num⟩

/-- Bounds of `x` and of `-x` that are sound on every box, read through the two functions with different batch sizes. -/
example : let net : BoxOf (Fin 1) ℚ → Full Unit (Fin 1) (Fin 2) ℚ := fun b =>
      ⟨(), ![b.2 0, -b.1 0], fun _ _ => 0, fun _ => 0, ![b.1 0, -b.2 0], fun _ _ => 0, fun _ => 0, fun _ => 0, fun _ => 0⟩
    ∃ us ls, upperOfBox net .ibp 1 2 [(fun _ => 0, fun _ => 1)] = .ok us ∧ lowerOfBox net .ibp 3 2 [(fun _ => 0, fun _ => 1)] = .ok ls ∧ List.Forall₂ (· ≤ ·) ls us := by
  intro net
  refine C122_box_ordered_partial net .ibp (fun p => ![p 0, -p 0]) 1 3 2 _ (by decide +kernel) fun b _ p hp => ⟨fun _ k => ?_, fun h => by simp [getAffine] at h, by simp⟩
  have := hp 0
  fin_cases k <;> simp [net]
  · exact this
  · exact this.symm

/-- A model of the identity on a Euclidean ball, and the orders that raise. -/
example (x : Fin 2 → ℝ) : ∃ u l,
    upperOfNoise (fun x => inputTensorsBall .affine (1 / 2) (.fin 2) x) .affine (1 / 2) (.fin 2) x 0 = .ok u ∧
    lowerOfNoise (fun x => inputTensorsBall .affine (1 / 2) (.fin 2) x) .affine (1 / 2) (.fin 2) x 0 = .ok l ∧ l ≤ u :=
  C122_noise_ordered_partial _ .affine (1 / 2) (by norm_num) (.fin 2) (.inr (.inr rfl)) x (fun p => p) (fun p hp => C27_input_ball .affine _ _ _ p hp) 0

example (net : (Fin 2 → ℝ) → Full Unit (Fin 2) (Fin 2) ℝ) (x : Fin 2 → ℝ) : upperOfNoise net .affine 1 (.fin 3) x 0 = .error .valueError :=
  (C122_noise_other_p net .affine 1 (.fin 3) ⟨by simp, by simp, by simp⟩ x 0).1

/-- Two outputs of two samples in two sub-boxes each; the exact bounds of `x ↦ (x, -x)`. -/
example : let net : BoxOf (Fin 1) ℚ → Full Unit (Fin 1) (Fin 2) ℚ := fun b =>
      ⟨(), ![b.2 0, -b.1 0], fun _ _ => 0, fun _ => 0, ![b.1 0, -b.2 0], fun _ _ => 0, fun _ => 0, fun _ => 0, fun _ => 0⟩
    upperOfBox net .ibp 1 2 [(fun _ => 0, fun _ => 1), (fun _ => 2, fun _ => 4)] = .ok [1 / 2, 1, 3, 4] ∧
      lowerOfBox net .ibp 3 2 [(fun _ => 0, fun _ => 1), (fun _ => 2, fun _ => 4)] = .ok [-1 / 2, -1, -3, -4] := by
  decide +kernel

end Decomon
