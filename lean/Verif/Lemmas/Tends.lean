import Verif.SpecTie
import Verif.Model.Weights
import Verif.Lemmas.Utils
import Verif.Model.Network
import Mathlib.Topology.Algebra.Order.Field
import Mathlib.Topology.Algebra.Monoid
import Mathlib.Topology.Order.Lattice
import Mathlib.Topology.Instances.Real.Lemmas

/-!
The tensors of a conversion tend to those of a limit when the input tensors and the parameters do, away from the jumps of the ReLU relaxation.
-/

namespace Decomon

open Filter Topology

/-- The lower slope chosen by the relaxation of a ReLU on a range wider than `eps`. -/
noncomputable def lowerSlope (s : Slope) (u l : ℝ) : ℝ :=
  match s with
  | .vSlope | .aSlope => if 0 < u + l then 1 else 0
  | .zSlope => if 0 ≤ l then 1 else 0
  | .oSlope => if 0 < u then 1 else 0
  | .sSlope => (relu u - relu l) / (u - l)

theorem hull_wide {eps u l : ℝ} (he : 0 < eps) (s : Slope) (h : eps < u - l) :
    linearHullRelu eps s 1 u l = ⟨(relu u - relu l) / (u - l), relu l - (relu u - relu l) / (u - l) * l, lowerSlope s u l, 0⟩ := by
  have hd : 0 < u - l := he.trans h
  rcases le_or_gt 0 l with hl | hl
  · have hu : 0 < u := by linarith
    have e : (relu u - relu l) / (u - l) = 1 := by
      rw [relu_of_nonneg hu.le, relu_of_nonneg hl, div_self hd.ne']
    rw [hullRelu_linear s hl, e, relu_of_nonneg hl]
    have : lowerSlope s u l = 1 := by
      cases s <;> simp [lowerSlope, hl, hu, e]
      all_goals linarith
    rw [this]
    simp
  · rcases le_or_gt u 0 with hu | hu
    · have e : (relu u - relu l) / (u - l) = 0 := by
        rw [relu_of_nonpos hu, relu_of_nonpos hl.le, sub_self, zero_div]
      rw [hullRelu_dead s hu hl, e, relu_of_nonpos hl.le]
      have : lowerSlope s u l = 0 := by
        cases s <;> simp [lowerSlope, hl.not_ge, hu.not_gt, e]
        all_goals linarith
      rw [this]
      simp
    · have e : (relu u - relu l) / (u - l) = u / (u - l) := by
        rw [relu_of_nonneg hu.le, relu_of_nonpos hl.le, sub_zero]
      rw [e, relu_of_nonpos hl.le]
      cases s with
      | vSlope =>
        rcases lt_trichotomy (u + l) 0 with c | c | c
        · simp [linearHullRelu, lowerSlope, indexDead_of_pos hu, indexLinear_of_neg hl, relu_of_nonneg hu.le, max_eq_right h.le, relu_of_nonpos hl.le, ksign, kclip, c, c.not_gt]
        · simp [linearHullRelu, lowerSlope, indexDead_of_pos hu, indexLinear_of_neg hl, relu_of_nonneg hu.le, max_eq_right h.le, relu_of_nonpos hl.le, ksign, kclip, c]
        · simp [linearHullRelu, lowerSlope, indexDead_of_pos hu, indexLinear_of_neg hl, relu_of_nonneg hu.le, max_eq_right h.le, relu_of_nonpos hl.le, ksign, kclip, c, c.not_gt, c.ne']
      | aSlope =>
        rcases lt_trichotomy (u + l) 0 with c | c | c
        · have : u / (u - l) < 2⁻¹ := by rw [div_lt_iff₀ hd]; linarith
          simp [linearHullRelu, lowerSlope, indexDead_of_pos hu, indexLinear_of_neg hl, relu_of_nonneg hu.le, max_eq_right h.le,
            relu_of_nonpos hl.le, ksign, kclip, this, c.not_gt]
        · have : u / (u - l) = 2⁻¹ := by rw [div_eq_iff hd.ne']; linarith
          simp [linearHullRelu, lowerSlope, indexDead_of_pos hu, indexLinear_of_neg hl, relu_of_nonneg hu.le, max_eq_right h.le,
            relu_of_nonpos hl.le, ksign, kclip, this, c]
        · have : 2⁻¹ < u / (u - l) := by rw [lt_div_iff₀ hd]; linarith
          simp [linearHullRelu, lowerSlope, indexDead_of_pos hu, indexLinear_of_neg hl, relu_of_nonneg hu.le, max_eq_right h.le,
            relu_of_nonpos hl.le, ksign, kclip, this.not_gt, sub_ne_zero.2 this.ne', c]
      | sSlope => simp [linearHullRelu, lowerSlope, indexDead_of_pos hu, indexLinear_of_neg hl, relu_of_nonneg hu.le, max_eq_right h.le, relu_of_nonpos hl.le]
      | zSlope => simp [linearHullRelu, lowerSlope, indexDead_of_pos hu, indexLinear_of_neg hl, relu_of_nonneg hu.le, max_eq_right h.le, relu_of_nonpos hl.le, hl.not_ge]
      | oSlope => simp [linearHullRelu, lowerSlope, indexDead_of_pos hu, indexLinear_of_neg hl, relu_of_nonneg hu.le, max_eq_right h.le, relu_of_nonpos hl.le, hu]

theorem tendsto_relu {T : Type} {F : Filter T} {u : T → ℝ} {u0 : ℝ} (hu : Tendsto u F (𝓝 u0)) : Tendsto (fun t => relu (u t)) F (𝓝 (relu u0)) :=
  hu.max tendsto_const_nhds

theorem tendsto_lowerSlope {T : Type} {F : Filter T} (s : Slope) {u l : T → ℝ} {u0 l0 : ℝ} (hu : Tendsto u F (𝓝 u0)) (hl : Tendsto l F (𝓝 l0))
    (hd : u0 - l0 ≠ 0) (h : ¬ s.Tied u0 l0) : Tendsto (fun t => lowerSlope s (u t) (l t)) F (𝓝 (lowerSlope s u0 l0)) := by
  have sum : ¬ u0 + l0 = 0 → Tendsto (fun t => if 0 < u t + l t then (1 : ℝ) else 0) F (𝓝 (if 0 < u0 + l0 then 1 else 0)) := fun h => by
    have a := hu.add hl
    rcases lt_or_gt_of_ne h with c | c
    · rw [if_neg c.not_gt]
      exact tendsto_const_nhds.congr' (by filter_upwards [a.eventually_lt_const c] with t ht; rw [if_neg ht.not_gt])
    · rw [if_pos c]
      exact tendsto_const_nhds.congr' (by filter_upwards [a.eventually_const_lt c] with t ht; rw [if_pos ht])
  cases s with
  | vSlope => exact sum h
  | aSlope => exact sum h
  | sSlope => exact ((tendsto_relu hu).sub (tendsto_relu hl)).div (hu.sub hl) hd
  | zSlope =>
    have h : l0 ≠ 0 := h
    simp only [lowerSlope]
    rcases lt_or_gt_of_ne h with c | c
    · rw [if_neg c.not_ge]
      exact tendsto_const_nhds.congr' (by filter_upwards [hl.eventually_lt_const c] with t ht; rw [if_neg ht.not_ge])
    · rw [if_pos c.le]
      exact tendsto_const_nhds.congr' (by filter_upwards [hl.eventually_const_lt c] with t ht; rw [if_pos ht.le])
  | oSlope =>
    have h : u0 ≠ 0 := h
    simp only [lowerSlope]
    rcases lt_or_gt_of_ne h with c | c
    · rw [if_neg c.not_gt]
      exact tendsto_const_nhds.congr' (by filter_upwards [hu.eventually_lt_const c] with t ht; rw [if_neg ht.not_gt])
    · rw [if_pos c]
      exact tendsto_const_nhds.congr' (by filter_upwards [hu.eventually_const_lt c] with t ht; rw [if_pos ht])

theorem tendsto_hull {T : Type} {F : Filter T} {eps : ℝ} (he : 0 < eps) (s : Slope) {u l : T → ℝ} {u0 l0 : ℝ} (hu : Tendsto u F (𝓝 u0))
    (hl : Tendsto l F (𝓝 l0)) (h : Steady eps s u0 l0) :
    Tendsto (fun t => (linearHullRelu eps s 1 (u t) (l t)).wu) F (𝓝 (linearHullRelu eps s 1 u0 l0).wu) ∧
    Tendsto (fun t => (linearHullRelu eps s 1 (u t) (l t)).bu) F (𝓝 (linearHullRelu eps s 1 u0 l0).bu) ∧
    Tendsto (fun t => (linearHullRelu eps s 1 (u t) (l t)).wl) F (𝓝 (linearHullRelu eps s 1 u0 l0).wl) ∧
    Tendsto (fun t => (linearHullRelu eps s 1 (u t) (l t)).bl) F (𝓝 (linearHullRelu eps s 1 u0 l0).bl) := by
  have const : ∀ r : Hull ℝ, (∀ᶠ t in F, linearHullRelu eps s 1 (u t) (l t) = r) → linearHullRelu eps s 1 u0 l0 = r →
      Tendsto (fun t => (linearHullRelu eps s 1 (u t) (l t)).wu) F (𝓝 (linearHullRelu eps s 1 u0 l0).wu) ∧
      Tendsto (fun t => (linearHullRelu eps s 1 (u t) (l t)).bu) F (𝓝 (linearHullRelu eps s 1 u0 l0).bu) ∧
      Tendsto (fun t => (linearHullRelu eps s 1 (u t) (l t)).wl) F (𝓝 (linearHullRelu eps s 1 u0 l0).wl) ∧
      Tendsto (fun t => (linearHullRelu eps s 1 (u t) (l t)).bl) F (𝓝 (linearHullRelu eps s 1 u0 l0).bl) := fun r hr h0 => by
    rw [h0]
    exact ⟨tendsto_const_nhds.congr' (hr.mono fun t ht => (congrArg Hull.wu ht).symm),
      tendsto_const_nhds.congr' (hr.mono fun t ht => (congrArg Hull.bu ht).symm),
      tendsto_const_nhds.congr' (hr.mono fun t ht => (congrArg Hull.wl ht).symm),
      tendsto_const_nhds.congr' (hr.mono fun t ht => (congrArg Hull.bl ht).symm)⟩
  rcases h with h | ⟨h1, h2⟩ | ⟨h1, h2⟩
  · exact const _ ((hl.eventually_const_lt h).mono fun t ht => hullRelu_linear s ht.le) (hullRelu_linear s h.le)
  · exact const _ (((hl.eventually_lt_const h1).and (hu.eventually_lt_const h2)).mono fun t ht => hullRelu_dead s ht.2.le ht.1)
      (hullRelu_dead s h2.le h1)
  · have ev := ((hu.sub hl).eventually_const_lt h1).mono fun t ht => hull_wide he s ht
    have hd : u0 - l0 ≠ 0 := (he.trans h1).ne'
    have a := ((tendsto_relu hu).sub (tendsto_relu hl)).div (hu.sub hl) hd
    rw [hull_wide he s h1]
    exact ⟨a.congr' (ev.mono fun t ht => (congrArg Hull.wu ht).symm),
      ((tendsto_relu hl).sub (a.mul hl)).congr' (ev.mono fun t ht => (congrArg Hull.bu ht).symm),
      (tendsto_lowerSlope s hu hl hd h2).congr' (ev.mono fun t ht => (congrArg Hull.wl ht).symm),
      tendsto_const_nhds.congr' (ev.mono fun t ht => (congrArg Hull.bl ht).symm)⟩

section
variable {X ι κ κ' T : Type}

/-- The tensors `f` tend to `f0`; `L` says when the tensors `x` do. -/
structure Tends (L : (T → X) → X → Prop) (F : Filter T) (f : T → Full X ι κ ℝ) (f0 : Full X ι κ ℝ) : Prop where
  x : L (fun t => (f t).x) f0.x
  uc : ∀ k, Tendsto (fun t => (f t).uc k) F (𝓝 (f0.uc k))
  wu : ∀ i k, Tendsto (fun t => (f t).wu i k) F (𝓝 (f0.wu i k))
  bu : ∀ k, Tendsto (fun t => (f t).bu k) F (𝓝 (f0.bu k))
  lc : ∀ k, Tendsto (fun t => (f t).lc k) F (𝓝 (f0.lc k))
  wl : ∀ i k, Tendsto (fun t => (f t).wl i k) F (𝓝 (f0.wl i k))
  bl : ∀ k, Tendsto (fun t => (f t).bl k) F (𝓝 (f0.bl k))

/-- The bounds over the perturbation domain depend continuously on the tensor `x` and on the weights. -/
structure PertDomain.Cont (D : PertDomain X ι ℝ) (L : (T → X) → X → Prop) (F : Filter T) : Prop where
  upper : ∀ (x : T → X) (x0 : X) (w : T → ι → ℝ) (w0 : ι → ℝ) (b : T → ℝ) (b0 : ℝ), L x x0 → (∀ i, Tendsto (fun t => w t i) F (𝓝 (w0 i))) →
    Tendsto b F (𝓝 b0) → Tendsto (fun t => D.getUpper (x t) (w t) (b t)) F (𝓝 (D.getUpper x0 w0 b0))
  lower : ∀ (x : T → X) (x0 : X) (w : T → ι → ℝ) (w0 : ι → ℝ) (b : T → ℝ) (b0 : ℝ), L x x0 → (∀ i, Tendsto (fun t => w t i) F (𝓝 (w0 i))) →
    Tendsto b F (𝓝 b0) → Tendsto (fun t => D.getLower (x t) (w t) (b t)) F (𝓝 (D.getLower x0 w0 b0))

variable {L : (T → X) → X → Prop} {F : Filter T} {D : PertDomain X ι ℝ} (hD : D.Cont L F)
include hD

theorem Tends.tighten {f : T → Full X ι κ ℝ} {f0 : Full X ι κ ℝ} (h : Tends L F f f0) (m : Mode) (c t : Bool) :
    Tends L F (fun s => (f s).tighten D m c t) (f0.tighten D m c t) := by
  have a : ∀ k, Tendsto (fun s => D.getUpper (f s).x (fun i => (f s).wu i k) ((f s).bu k)) F (𝓝 (D.getUpper f0.x (fun i => f0.wu i k) (f0.bu k))) :=
    fun k => hD.upper _ _ _ _ _ _ h.x (fun i => h.wu i k) (h.bu k)
  have b : ∀ k, Tendsto (fun s => D.getLower (f s).x (fun i => (f s).wl i k) ((f s).bl k)) F (𝓝 (D.getLower f0.x (fun i => f0.wl i k) (f0.bl k))) :=
    fun k => hD.lower _ _ _ _ _ _ h.x (fun i => h.wl i k) (h.bl k)
  unfold Full.tighten
  split_ifs with h1 h2
  · exact ⟨h.x, a, h.wu, h.bu, b, h.wl, h.bl⟩
  · exact ⟨h.x, fun k => (h.uc k).min (a k), h.wu, h.bu, fun k => (h.lc k).max (b k), h.wl, h.bl⟩
  · exact h

end

section
variable {X ι κ κ' T : Type} {L : (T → X) → X → Prop} {F : Filter T} {D : PertDomain X ι ℝ} (hD : D.Cont L F) (m : Mode)
include hD

theorem Tends.addT {f g : T → Full X ι κ ℝ} {f0 g0 : Full X ι κ ℝ} (hf : Tends L F f f0) (hg : Tends L F g g0) :
    Tends L F (fun t => addT D m (f t) (g t)) (addT D m f0 g0) := by
  have a := hf.tighten hD m true true
  have b := hg.tighten hD m true true
  exact ⟨a.x, fun k => (a.uc k).add (b.uc k), fun i k => (a.wu i k).add (b.wu i k), fun k => (a.bu k).add (b.bu k), fun k => (a.lc k).add (b.lc k),
    fun i k => (a.wl i k).add (b.wl i k), fun k => (a.bl k).add (b.bl k)⟩

theorem Tends.minusT {f : T → Full X ι κ ℝ} {f0 : Full X ι κ ℝ} (hf : Tends L F f f0) : Tends L F (fun t => minusT D m (f t)) (minusT D m f0) := by
  have a := hf.tighten hD m false false
  exact ⟨a.x, fun k => (a.lc k).neg, fun i k => (a.wl i k).neg, fun k => (a.bl k).neg, fun k => (a.uc k).neg,
    fun i k => (a.wu i k).neg, fun k => (a.bu k).neg⟩

theorem Tends.subtractT {f g : T → Full X ι κ ℝ} {f0 g0 : Full X ι κ ℝ} (hf : Tends L F f f0) (hg : Tends L F g g0) :
    Tends L F (fun t => subtractT D m (f t) (g t)) (subtractT D m f0 g0) := hf.addT hD m (hg.minusT hD m)

theorem Tends.reluT {eps : ℝ} (he : 0 < eps) (s : Slope) {f : T → Full X ι κ ℝ} {f0 : Full X ι κ ℝ} (hf : Tends L F f f0) (gamma : T → κ → ℝ)
    (gamma0 : κ → ℝ) (hg : ∀ t k, gamma t k = 1) (hg0 : ∀ k, gamma0 k = 1)
    (h : getAffine m = true → ∀ k, Steady eps s ((f0.tighten D m true true).uc k) ((f0.tighten D m true true).lc k)) :
    Tends L F (fun t => reluT D m false eps s (gamma t) (f t)) (reluT D m false eps s gamma0 f0) := by
  obtain rfl : gamma = fun _ _ => 1 := by funext t k; exact hg t k
  obtain rfl : gamma0 = fun _ => 1 := by funext k; exact hg0 k
  have a := hf.tighten hD m true true
  refine ⟨a.x, fun k => ?_, fun i k => ?_, fun k => ?_, fun k => ?_, fun i k => ?_, fun k => ?_⟩ <;> simp only [Decomon.reluT]
  · split_ifs
    exacts [tendsto_relu (a.uc k), tendsto_const_nhds]
  · split_ifs with hm
    exacts [(tendsto_hull he s (a.uc k) (a.lc k) (h hm k)).1.mul (a.wu i k), tendsto_const_nhds]
  · split_ifs with hm
    exacts [((tendsto_hull he s (a.uc k) (a.lc k) (h hm k)).1.mul (a.bu k)).add (tendsto_hull he s (a.uc k) (a.lc k) (h hm k)).2.1, tendsto_const_nhds]
  · split_ifs
    exacts [tendsto_relu (a.lc k), tendsto_const_nhds]
  · split_ifs with hm
    exacts [(tendsto_hull he s (a.uc k) (a.lc k) (h hm k)).2.2.1.mul (a.wl i k), tendsto_const_nhds]
  · split_ifs with hm
    exacts [((tendsto_hull he s (a.uc k) (a.lc k) (h hm k)).2.2.1.mul (a.bl k)).add (tendsto_hull he s (a.uc k) (a.lc k) (h hm k)).2.2.2,
      tendsto_const_nhds]

theorem Tends.maximumT {eps : ℝ} (he : 0 < eps) {f g : T → Full X ι κ ℝ} {f0 g0 : Full X ι κ ℝ} (hf : Tends L F f f0) (hg : Tends L F g g0)
    (h : getAffine m = true → ∀ k, Steady eps .vSlope (((Decomon.subtractT D m g0 f0).tighten D m true true).uc k)
      (((Decomon.subtractT D m g0 f0).tighten D m true true).lc k)) :
    Tends L F (fun t => maximumT D m false eps (fun _ => 1) (f t) (g t)) (maximumT D m false eps (fun _ => 1) f0 g0) :=
  (((hg.subtractT hD m hf).reluT hD m he .vSlope (fun _ _ => 1) (fun _ => 1) (fun _ _ => rfl) (fun _ => rfl) h)).addT hD m hf

theorem Tends.multiplyT {f g : T → Full X ι κ ℝ} {f0 g0 : Full X ι κ ℝ} (hf : Tends L F f f0) (hg : Tends L F g g0) :
    Tends L F (fun t => multiplyT D m (f t) (g t)) (multiplyT D m f0 g0) := by
  have a := hf.tighten hD m true true
  have b := hg.tighten hD m true true
  obtain ⟨a1, a2, a3, a4, a5, a6, a7⟩ := a
  obtain ⟨b1, b2, b3, b4, b5, b6, b7⟩ := b
  refine ⟨a1, fun k => ?_, fun i k => ?_, fun k => ?_, fun k => ?_, fun i k => ?_, fun k => ?_⟩ <;> simp only [Decomon.multiplyT] <;> split_ifs
  · exact ((((a2 k).mul (b2 k)).max ((a2 k).mul (b5 k))).add (((a2 k).mul (b5 k)).max ((a5 k).mul (b5 k)))).sub ((a2 k).mul (b5 k)) |>.min
      (((((b2 k).mul (a2 k)).max ((b2 k).mul (a5 k))).add (((b2 k).mul (a5 k)).max ((b5 k).mul (a5 k)))).sub ((b2 k).mul (a5 k)))
  · exact tendsto_const_nhds
  · exact (((((a2 k).max tendsto_const_nhds).mul (b3 i k)).add (((a2 k).min tendsto_const_nhds).mul (b6 i k))).add
      (((b5 k).max tendsto_const_nhds).mul (a3 i k))).add (((b5 k).min tendsto_const_nhds).mul (a6 i k))
  · exact tendsto_const_nhds
  · exact ((((((a2 k).max tendsto_const_nhds).mul (b4 k)).add (((a2 k).min tendsto_const_nhds).mul (b7 k))).add
      (((b5 k).max tendsto_const_nhds).mul (a4 k))).add (((b5 k).min tendsto_const_nhds).mul (a7 k))).sub ((a2 k).mul (b5 k))
  · exact tendsto_const_nhds
  · exact ((((a5 k).mul (b5 k)).min ((a5 k).mul (b2 k))).add (((a5 k).mul (b5 k)).min ((a2 k).mul (b5 k)))).sub ((a5 k).mul (b5 k))
  · exact tendsto_const_nhds
  · exact (((((a5 k).max tendsto_const_nhds).mul (b6 i k)).add (((a5 k).min tendsto_const_nhds).mul (b3 i k))).add
      (((b5 k).max tendsto_const_nhds).mul (a6 i k))).add (((b5 k).min tendsto_const_nhds).mul (a3 i k))
  · exact tendsto_const_nhds
  · exact ((((((a5 k).max tendsto_const_nhds).mul (b7 k)).add (((a5 k).min tendsto_const_nhds).mul (b4 k))).add
      (((b5 k).max tendsto_const_nhds).mul (a7 k))).add (((b5 k).min tendsto_const_nhds).mul (a4 k))).sub ((a5 k).mul (b5 k))
  · exact tendsto_const_nhds

theorem Tends.denseT [Fintype κ] {f : T → Full X ι κ ℝ} {f0 : Full X ι κ ℝ} (hf : Tends L F f f0) (kernel : T → κ → κ' → ℝ) (kernel0 : κ → κ' → ℝ)
    (bias : T → κ' → ℝ) (bias0 : κ' → ℝ) (hk : ∀ i o, Tendsto (fun t => kernel t i o) F (𝓝 (kernel0 i o)))
    (hb : ∀ o, Tendsto (fun t => bias t o) F (𝓝 (bias0 o))) :
    Tends L F (fun t => denseT D m false (kernel t) (bias t) (f t)) (denseT D m false kernel0 bias0 f0) := by
  obtain ⟨a1, a2, a3, a4, a5, a6, a7⟩ := hf.tighten hD m false true
  have dot : ∀ (r : T → κ → κ' → ℝ) (r0 : κ → κ' → ℝ) (v : T → κ → ℝ) (v0 : κ → ℝ) (o : κ'), (∀ i o, Tendsto (fun t => r t i o) F (𝓝 (r0 i o))) →
      (∀ s, Tendsto (fun t => v t s) F (𝓝 (v0 s))) → Tendsto (fun t => ∑ i, r t i o * v t i) F (𝓝 (∑ i, r0 i o * v0 i)) := fun r r0 v v0 o hr hv =>
    tendsto_finsetSum _ fun i _ => (hr i o).mul (hv i)
  have pos : ∀ i o, Tendsto (fun t => max 0 (kernel t i o)) F (𝓝 (max 0 (kernel0 i o))) := fun i o => tendsto_const_nhds.max (hk i o)
  have neg : ∀ i o, Tendsto (fun t => min 0 (kernel t i o)) F (𝓝 (min 0 (kernel0 i o))) := fun i o => tendsto_const_nhds.min (hk i o)
  refine ⟨a1, fun k => ?_, fun i k => ?_, fun k => ?_, fun k => ?_, fun i k => ?_, fun k => ?_⟩ <;> simp only [Decomon.denseT] <;> split_ifs
  · exact ((dot _ _ _ _ k pos a2).add (dot _ _ _ _ k neg a5)).add (hb k)
  · exact tendsto_const_nhds
  · exact (dot _ _ _ _ k pos (a3 i)).add (dot _ _ _ _ k neg (a6 i))
  · exact tendsto_const_nhds
  · exact ((dot _ _ _ _ k pos a4).add (dot _ _ _ _ k neg a7)).add (hb k)
  · exact tendsto_const_nhds
  · exact ((dot _ _ _ _ k pos a5).add (dot _ _ _ _ k neg a2)).add (hb k)
  · exact tendsto_const_nhds
  · exact (dot _ _ _ _ k pos (a6 i)).add (dot _ _ _ _ k neg (a3 i))
  · exact tendsto_const_nhds
  · exact ((dot _ _ _ _ k pos a7).add (dot _ _ _ _ k neg a4)).add (hb k)
  · exact tendsto_const_nhds

theorem Tends.linearLayerT {S O U Q : Type} [Fintype U] {f : T → Full X ι S ℝ} {f0 : Full X ι S ℝ} (hf : Tends L F f f0) (I : LinIndex S O U Q)
    (kernel : T → Q → ℝ) (kernel0 : Q → ℝ) (bias : T → O → ℝ) (bias0 : O → ℝ) (hk : ∀ q, Tendsto (fun t => kernel t q) F (𝓝 (kernel0 q)))
    (hb : ∀ o, Tendsto (fun t => bias t o) F (𝓝 (bias0 o))) :
    Tends L F (fun t => linearLayerT D m false I (kernel t) (bias t) (f t)) (linearLayerT D m false I kernel0 bias0 f0) := by
  obtain ⟨a1, a2, a3, a4, a5, a6, a7⟩ := hf.tighten hD m false true
  have ap : ∀ (r : T → Q → ℝ) (r0 : Q → ℝ) (v : T → S → ℝ) (v0 : S → ℝ) (o : O), (∀ q, Tendsto (fun t => r t q) F (𝓝 (r0 q))) →
      (∀ s, Tendsto (fun t => v t s) F (𝓝 (v0 s))) → Tendsto (fun t => I.apply (r t) (v t) o) F (𝓝 (I.apply r0 v0 o)) := fun r r0 v v0 o hr hv => by
    unfold LinIndex.apply
    refine tendsto_finsetSum _ fun u _ => (hr _).mul ?_
    cases I.src o u with
    | none => exact tendsto_const_nhds
    | some s => exact hv s
  have pos : ∀ q, Tendsto (fun t => max 0 (kernel t q)) F (𝓝 (max 0 (kernel0 q))) := fun q => tendsto_const_nhds.max (hk q)
  have neg : ∀ q, Tendsto (fun t => min 0 (kernel t q)) F (𝓝 (min 0 (kernel0 q))) := fun q => tendsto_const_nhds.min (hk q)
  refine ⟨a1, fun k => ?_, fun i k => ?_, fun k => ?_, fun k => ?_, fun i k => ?_, fun k => ?_⟩ <;> simp only [Decomon.linearLayerT] <;> split_ifs
  · exact ((ap _ _ _ _ k pos a2).add (ap _ _ _ _ k neg a5)).add (hb k)
  · exact tendsto_const_nhds
  · exact (ap _ _ _ _ k pos (a3 i)).add (ap _ _ _ _ k neg (a6 i))
  · exact tendsto_const_nhds
  · exact ((ap _ _ _ _ k pos a4).add (ap _ _ _ _ k neg a7)).add (hb k)
  · exact tendsto_const_nhds
  · exact ((ap _ _ _ _ k pos a5).add (ap _ _ _ _ k neg a2)).add (hb k)
  · exact tendsto_const_nhds
  · exact (ap _ _ _ _ k pos (a6 i)).add (ap _ _ _ _ k neg (a3 i))
  · exact tendsto_const_nhds
  · exact ((ap _ _ _ _ k pos a7).add (ap _ _ _ _ k neg a4)).add (hb k)
  · exact tendsto_const_nhds

theorem Tends.batchNormT {f : T → Full X ι κ ℝ} {f0 : Full X ι κ ℝ} (hf : Tends L F f f0) (gamma beta mean sd : T → κ → ℝ)
    (gamma0 beta0 mean0 sd0 : κ → ℝ) (h1 : ∀ k, Tendsto (fun t => gamma t k) F (𝓝 (gamma0 k))) (h2 : ∀ k, Tendsto (fun t => beta t k) F (𝓝 (beta0 k)))
    (h3 : ∀ k, Tendsto (fun t => mean t k) F (𝓝 (mean0 k))) (h4 : ∀ k, Tendsto (fun t => sd t k) F (𝓝 (sd0 k))) (hs : ∀ k, sd0 k ≠ 0) :
    Tends L F (fun t => batchNormT D m (gamma t) (beta t) (mean t) (sd t) (f t)) (batchNormT D m gamma0 beta0 mean0 sd0 f0) := by
  obtain ⟨a1, a2, a3, a4, a5, a6, a7⟩ := hf.tighten hD m false true
  have p : ∀ k, Tendsto (fun t => max 0 (gamma t k)) F (𝓝 (max 0 (gamma0 k))) := fun k => tendsto_const_nhds.max (h1 k)
  have n : ∀ k, Tendsto (fun t => min 0 (gamma t k)) F (𝓝 (min 0 (gamma0 k))) := fun k => tendsto_const_nhds.min (h1 k)
  refine ⟨a1, fun k => ?_, fun i k => ?_, fun k => ?_, fun k => ?_, fun i k => ?_, fun k => ?_⟩ <;> simp only [Decomon.batchNormT] <;> split_ifs
  · exact (((p k).mul (((a2 k).sub (h3 k)).div (h4 k) (hs k))).add ((n k).mul (((a5 k).sub (h3 k)).div (h4 k) (hs k)))).add (h2 k)
  · exact tendsto_const_nhds
  · exact ((p k).mul ((a3 i k).div (h4 k) (hs k))).add ((n k).mul ((a6 i k).div (h4 k) (hs k)))
  · exact tendsto_const_nhds
  · exact (((p k).mul (((a4 k).sub (h3 k)).div (h4 k) (hs k))).add ((n k).mul (((a7 k).sub (h3 k)).div (h4 k) (hs k)))).add (h2 k)
  · exact tendsto_const_nhds
  · exact (((p k).mul (((a5 k).sub (h3 k)).div (h4 k) (hs k))).add ((n k).mul (((a2 k).sub (h3 k)).div (h4 k) (hs k)))).add (h2 k)
  · exact tendsto_const_nhds
  · exact ((p k).mul ((a6 i k).div (h4 k) (hs k))).add ((n k).mul ((a3 i k).div (h4 k) (hs k)))
  · exact tendsto_const_nhds
  · exact (((p k).mul (((a7 k).sub (h3 k)).div (h4 k) (hs k))).add ((n k).mul (((a4 k).sub (h3 k)).div (h4 k) (hs k)))).add (h2 k)
  · exact tendsto_const_nhds

theorem Tends.reindexT {f : T → Full X ι κ ℝ} {f0 : Full X ι κ ℝ} (hf : Tends L F f f0) (e : κ' → κ) :
    Tends L F (fun t => reindexT D m false e (f t)) (reindexT D m false e f0) := by
  obtain ⟨a1, a2, a3, a4, a5, a6, a7⟩ := hf.tighten hD m false true
  refine ⟨a1, fun k => ?_, fun i k => ?_, fun k => ?_, fun k => ?_, fun i k => ?_, fun k => ?_⟩ <;> simp only [Decomon.reindexT] <;> split_ifs
  · exact a2 (e k)
  · exact tendsto_const_nhds
  · exact a3 i (e k)
  · exact tendsto_const_nhds
  · exact a4 (e k)
  · exact tendsto_const_nhds
  · exact a5 (e k)
  · exact tendsto_const_nhds
  · exact a6 i (e k)
  · exact tendsto_const_nhds
  · exact a7 (e k)
  · exact tendsto_const_nhds

theorem Tends.addLayerT {f g : T → Full X ι κ ℝ} {f0 g0 : Full X ι κ ℝ} (hf : Tends L F f f0) (hg : Tends L F g g0) :
    Tends L F (fun t => addLayerT D m (f t) [g t]) (addLayerT D m f0 [g0]) := by
  obtain ⟨a1, a2, a3, a4, a5, a6, a7⟩ := hf.tighten hD m false true
  obtain ⟨b1, b2, b3, b4, b5, b6, b7⟩ := hg.tighten hD m false true
  refine ⟨hf.x, fun k => ?_, fun i k => ?_, fun k => ?_, fun k => ?_, fun i k => ?_, fun k => ?_⟩ <;>
    simp only [Decomon.addLayerT, List.map_cons, List.map_nil, List.sum_cons, List.sum_nil, add_zero] <;> split_ifs
  · exact (a2 k).add (b2 k)
  · exact tendsto_const_nhds
  · exact (a3 i k).add (b3 i k)
  · exact tendsto_const_nhds
  · exact (a4 k).add (b4 k)
  · exact tendsto_const_nhds
  · exact (a5 k).add (b5 k)
  · exact tendsto_const_nhds
  · exact (a6 i k).add (b6 i k)
  · exact tendsto_const_nhds
  · exact (a7 k).add (b7 k)
  · exact tendsto_const_nhds

theorem Tends.averageLayerT {f g : T → Full X ι κ ℝ} {f0 g0 : Full X ι κ ℝ} (hf : Tends L F f f0) (hg : Tends L F g g0) :
    Tends L F (fun t => averageLayerT D m (f t) [g t]) (averageLayerT D m f0 [g0]) := by
  obtain ⟨a1, a2, a3, a4, a5, a6, a7⟩ := hf.tighten hD m false true
  obtain ⟨b1, b2, b3, b4, b5, b6, b7⟩ := hg.tighten hD m false true
  refine ⟨hf.x, fun k => ?_, fun i k => ?_, fun k => ?_, fun k => ?_, fun i k => ?_, fun k => ?_⟩ <;>
    simp only [Decomon.averageLayerT, List.map_cons, List.map_nil, List.sum_cons, List.sum_nil, add_zero, List.length_cons, List.length_nil] <;>
    split_ifs
  · exact ((a2 k).add (b2 k)).div_const _
  · exact tendsto_const_nhds
  · exact ((a3 i k).add (b3 i k)).div_const _
  · exact tendsto_const_nhds
  · exact ((a4 k).add (b4 k)).div_const _
  · exact tendsto_const_nhds
  · exact ((a5 k).add (b5 k)).div_const _
  · exact tendsto_const_nhds
  · exact ((a6 i k).add (b6 i k)).div_const _
  · exact tendsto_const_nhds
  · exact ((a7 k).add (b7 k)).div_const _
  · exact tendsto_const_nhds

end

end Decomon
