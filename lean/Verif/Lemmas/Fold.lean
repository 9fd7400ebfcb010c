import Verif.SpecFold
import Verif.Lemmas.SymmBack
import Verif.Lemmas.Mono

/-! Helper lemmas on the merging of linear layers. -/

namespace Decomon

section Algebra
variable {κ μ α : Type*} [Fintype μ] [Field α] [LinearOrder α] [IsStrictOrderedRing α]

theorem posneg_mul (a b : α) : max 0 (a * b) = max 0 b * max 0 a + min 0 b * min 0 a ∧ min 0 (a * b) = max 0 b * min 0 a + min 0 b * max 0 a := by
  rcases le_total 0 a with ha | ha <;> rcases le_total 0 b with hb | hb
  · rw [max_eq_right ha, max_eq_right hb, min_eq_left ha, min_eq_left hb, max_eq_right (mul_nonneg ha hb), min_eq_left (mul_nonneg ha hb)]
    constructor <;> ring
  · have := mul_nonpos_of_nonneg_of_nonpos ha hb
    rw [max_eq_right ha, max_eq_left hb, min_eq_left ha, min_eq_right hb, max_eq_left this, min_eq_right this]
    constructor <;> ring
  · have := mul_nonpos_of_nonpos_of_nonneg ha hb
    rw [max_eq_left ha, max_eq_right hb, min_eq_right ha, min_eq_left hb, max_eq_left this, min_eq_right this]
    constructor <;> ring
  · have := mul_nonneg_of_nonpos_of_nonpos ha hb
    rw [max_eq_left ha, max_eq_left hb, min_eq_right ha, min_eq_right hb, max_eq_right this, min_eq_left this]
    constructor <;> ring

/-- A sum with at most one term. -/
theorem posneg_single (p : μ → α) (h : ∀ t t', p t ≠ 0 → p t' ≠ 0 → t = t') :
    max 0 (∑ t, p t) = ∑ t, max 0 (p t) ∧ min 0 (∑ t, p t) = ∑ t, min 0 (p t) := by
  by_cases h0 : ∃ t, p t ≠ 0
  · obtain ⟨t, ht⟩ := h0
    have hz : ∀ t', t' ≠ t → p t' = 0 := fun t' hne => by
      by_contra hp; exact hne (h t' t hp ht)
    rw [Finset.sum_eq_single t (fun t' _ hne => hz t' hne) (fun h => absurd (Finset.mem_univ _) h),
      Finset.sum_eq_single t (fun t' _ hne => by rw [hz t' hne]; simp) (fun h => absurd (Finset.mem_univ _) h),
      Finset.sum_eq_single t (fun t' _ hne => by rw [hz t' hne]; simp) (fun h => absurd (Finset.mem_univ _) h)]
    exact ⟨rfl, rfl⟩
  · push Not at h0
    simp [h0]

end Algebra

/-! ### Tensors -/

section Tensors
variable {X ι κ μ ν α : Type*} [Field α] [LinearOrder α]

/-- The tensors that are used in mode `m` are the same. -/
structure Agree (m : Mode) (f g : Full X ι κ α) : Prop where
  x : f.x = g.x
  uc : getIbp m = true → f.uc = g.uc
  lc : getIbp m = true → f.lc = g.lc
  wu : getAffine m = true → f.wu = g.wu
  bu : getAffine m = true → f.bu = g.bu
  wl : getAffine m = true → f.wl = g.wl
  bl : getAffine m = true → f.bl = g.bl

theorem Agree.rfl' {m : Mode} {f : Full X ι κ α} : Agree m f f := ⟨rfl, fun _ => rfl, fun _ => rfl, fun _ => rfl, fun _ => rfl, fun _ => rfl, fun _ => rfl⟩

theorem Agree.symm {m : Mode} {f g : Full X ι κ α} (h : Agree m f g) : Agree m g f :=
  ⟨h.x.symm, fun a => (h.uc a).symm, fun a => (h.lc a).symm, fun a => (h.wu a).symm, fun a => (h.bu a).symm, fun a => (h.wl a).symm,
    fun a => (h.bl a).symm⟩

theorem Agree.trans {m : Mode} {f g k : Full X ι κ α} (h : Agree m f g) (h' : Agree m g k) : Agree m f k :=
  ⟨h.x.trans h'.x, fun a => (h.uc a).trans (h'.uc a), fun a => (h.lc a).trans (h'.lc a), fun a => (h.wu a).trans (h'.wu a),
    fun a => (h.bu a).trans (h'.bu a), fun a => (h.wl a).trans (h'.wl a), fun a => (h.bl a).trans (h'.bl a)⟩

/-- The tensors used by an activation. -/
structure AgreeTight (D : PertDomain X ι α) (m : Mode) (f g : Full X ι κ α) : Prop extends
    Agree m (f.tighten D m true true) (g.tighten D m true true) where
  tuc : (f.tighten D m true true).uc = (g.tighten D m true true).uc
  tlc : (f.tighten D m true true).lc = (g.tighten D m true true).lc

/-- The tensors hold the same bounds: they are the same after the tightening done by all layers. -/
def SameInfo (D : PertDomain X ι α) (m : Mode) (f g : Full X ι κ α) : Prop :=
  Agree m (f.tighten D m false true) (g.tighten D m false true)

variable {D : PertDomain X ι α} {m : Mode}

theorem agree_tighten {f g : Full X ι κ α} (h : Agree m f g) (b : Bool) : Agree m (f.tighten D m false b) (g.tighten D m false b) := by
  obtain ⟨x, uc, wu, bu, lc, wl, bl, hh, gg⟩ := f
  obtain ⟨x', uc', wu', bu', lc', wl', bl', hh', gg'⟩ := g
  obtain ⟨h1, h2, h3, h4, h5, h6, h7⟩ := h
  cases m with
  | ibp =>
    have h2 := h2 rfl; have h3 := h3 rfl
    dsimp only at *
    subst h1 h2 h3
    cases b <;> exact ⟨rfl, fun _ => rfl, fun _ => rfl, fun a => by simp [getAffine] at a, fun a => by simp [getAffine] at a,
      fun a => by simp [getAffine] at a, fun a => by simp [getAffine] at a⟩
  | affine =>
    have h4 := h4 rfl; have h5 := h5 rfl; have h6 := h6 rfl; have h7 := h7 rfl
    dsimp only at *
    subst h1 h4 h5 h6 h7
    cases b <;> exact ⟨rfl, fun a => by simp [getIbp] at a, fun a => by simp [getIbp] at a, fun _ => rfl, fun _ => rfl, fun _ => rfl, fun _ => rfl⟩
  | hybrid =>
    have h2 := h2 rfl; have h3 := h3 rfl; have h4 := h4 rfl; have h5 := h5 rfl; have h6 := h6 rfl; have h7 := h7 rfl
    dsimp only at *
    subst h1 h2 h3 h4 h5 h6 h7
    cases b <;> exact ⟨rfl, fun _ => rfl, fun _ => rfl, fun _ => rfl, fun _ => rfl, fun _ => rfl, fun _ => rfl⟩

theorem agree_tighten' {f g : Full X ι κ α} (h : Agree m f g) : AgreeTight D m f g := by
  obtain ⟨x, uc, wu, bu, lc, wl, bl, hh, gg⟩ := f
  obtain ⟨x', uc', wu', bu', lc', wl', bl', hh', gg'⟩ := g
  obtain ⟨h1, h2, h3, h4, h5, h6, h7⟩ := h
  cases m with
  | ibp =>
    have h2 := h2 rfl; have h3 := h3 rfl
    dsimp only at *
    subst h1 h2 h3
    exact ⟨⟨rfl, fun _ => rfl, fun _ => rfl, fun a => by simp [getAffine] at a, fun a => by simp [getAffine] at a,
      fun a => by simp [getAffine] at a, fun a => by simp [getAffine] at a⟩, rfl, rfl⟩
  | affine =>
    have h4 := h4 rfl; have h5 := h5 rfl; have h6 := h6 rfl; have h7 := h7 rfl
    dsimp only at *
    subst h1 h4 h5 h6 h7
    exact ⟨⟨rfl, fun a => by simp [getIbp] at a, fun a => by simp [getIbp] at a, fun _ => rfl, fun _ => rfl, fun _ => rfl, fun _ => rfl⟩, rfl, rfl⟩
  | hybrid =>
    have h2 := h2 rfl; have h3 := h3 rfl; have h4 := h4 rfl; have h5 := h5 rfl; have h6 := h6 rfl; have h7 := h7 rfl
    dsimp only at *
    subst h1 h2 h3 h4 h5 h6 h7
    exact ⟨⟨rfl, fun _ => rfl, fun _ => rfl, fun _ => rfl, fun _ => rfl, fun _ => rfl, fun _ => rfl⟩, rfl, rfl⟩

/-- Tightening twice is tightening once. -/
theorem tighten_twice (b : Bool) (f : Full X ι κ α) : (f.tighten D m false true).tighten D m b true = f.tighten D m b true := by
  cases m with
  | ibp => cases b <;> rfl
  | affine => cases b <;> rfl
  | hybrid =>
    have e : ∀ f : Full X ι κ α, f.tighten D .hybrid b true = f.tighten D .hybrid false true := fun f => by cases b <;> rfl
    rw [e, e]
    simp [Full.tighten, min_assoc, max_assoc]

theorem SameInfo.rfl' {f : Full X ι κ α} : SameInfo D m f f := Agree.rfl'

theorem SameInfo.of_agree {f g : Full X ι κ α} (h : Agree m f g) : SameInfo D m f g := agree_tighten h true

theorem SameInfo.tight {f g : Full X ι κ α} (h : SameInfo D m f g) : AgreeTight D m f g := by
  have := agree_tighten' (D := D) h
  obtain ⟨h1, h2, h3⟩ := this
  rw [tighten_twice, tighten_twice] at *
  exact ⟨h1, h2, h3⟩

theorem SameInfo.symm {f g : Full X ι κ α} (h : SameInfo D m f g) : SameInfo D m g f := Agree.symm h

theorem SameInfo.trans {f g k : Full X ι κ α} (h : SameInfo D m f g) (h' : SameInfo D m g k) : SameInfo D m f k := Agree.trans h h'

/-- The concretisation of a multiple of an affine form. -/
def PertDomain.Scales (D : PertDomain X ι α) (x : X) : Prop :=
  ∀ (c d : α) (w : ι → α) (b : α),
    (0 ≤ c → D.getUpper x (fun i => c * w i) (c * b + d) = c * D.getUpper x w b + d ∧
      D.getLower x (fun i => c * w i) (c * b + d) = c * D.getLower x w b + d) ∧
    (c ≤ 0 → D.getUpper x (fun i => c * w i) (c * b + d) = c * D.getLower x w b + d ∧
      D.getLower x (fun i => c * w i) (c * b + d) = c * D.getUpper x w b + d)

/-- `Dense.call` without the tightening of its inputs. -/
def linMap [Fintype μ] (m : Mode) (K : μ → ν → α) (b : ν → α) (f : Full X ι μ α) : Full X ι ν α where
  x := f.x
  uc := fun o => if getIbp m then ∑ t, max 0 (K t o) * f.uc t + ∑ t, min 0 (K t o) * f.lc t + b o else 0
  lc := fun o => if getIbp m then ∑ t, max 0 (K t o) * f.lc t + ∑ t, min 0 (K t o) * f.uc t + b o else 0
  wu := fun i o => if getAffine m then ∑ t, max 0 (K t o) * f.wu i t + ∑ t, min 0 (K t o) * f.wl i t else 0
  bu := fun o => if getAffine m then ∑ t, max 0 (K t o) * f.bu t + ∑ t, min 0 (K t o) * f.bl t + b o else 0
  wl := fun i o => if getAffine m then ∑ t, max 0 (K t o) * f.wl i t + ∑ t, min 0 (K t o) * f.wu i t else 0
  bl := fun o => if getAffine m then ∑ t, max 0 (K t o) * f.bl t + ∑ t, min 0 (K t o) * f.bu t + b o else 0
  h := fun _ => 0
  g := fun _ => 0

theorem denseT_eq [Fintype μ] (K : μ → ν → α) (b : ν → α) (f : Full X ι μ α) :
    denseT D m false K b f = linMap m K b (f.tighten D m false true) := rfl

theorem linMap_agree [Fintype μ] (K : μ → ν → α) (b : ν → α) {f g : Full X ι μ α} (h : Agree m f g) : linMap m K b f = linMap m K b g := by
  have e : ∀ {p : Bool} {u v : ν → α}, (p = true → u = v) → (fun o => if p = true then u o else 0) = fun o => if p = true then v o else 0 := by
    intro p u v hp; cases p with
    | false => rfl
    | true => simp [hp]
  have e2 : ∀ {p : Bool} {u v : ι → ν → α}, (p = true → u = v) → (fun i o => if p = true then u i o else 0) = fun i o => if p = true then v i o else 0 := by
    intro p u v hp; cases p with
    | false => rfl
    | true => simp [hp]
  unfold linMap
  congr 1
  · exact h.x
  · exact e fun a => by rw [h.uc a, h.lc a]
  · exact e2 fun a => by rw [h.wu a, h.wl a]
  · exact e fun a => by rw [h.bu a, h.bl a]
  · exact e fun a => by rw [h.uc a, h.lc a]
  · exact e2 fun a => by rw [h.wu a, h.wl a]
  · exact e fun a => by rw [h.bu a, h.bl a]

variable [IsStrictOrderedRing α]

/-- A sum of products in two steps, without cancellation. -/
theorem two_steps [Fintype κ] [Fintype μ] (K1 : κ → μ → α) (b1 : μ → α) (c : μ → α) (b : α) (u l : κ → α)
    (h : ∀ i, max 0 (∑ t, K1 i t * c t) = ∑ t, max 0 (K1 i t * c t) ∧ min 0 (∑ t, K1 i t * c t) = ∑ t, min 0 (K1 i t * c t)) :
    ∑ t, max 0 (c t) * (∑ i, max 0 (K1 i t) * u i + ∑ i, min 0 (K1 i t) * l i + b1 t) +
      ∑ t, min 0 (c t) * (∑ i, max 0 (K1 i t) * l i + ∑ i, min 0 (K1 i t) * u i + b1 t) + b =
    ∑ i, max 0 (∑ t, K1 i t * c t) * u i + ∑ i, min 0 (∑ t, K1 i t * c t) * l i + (∑ t, c t * b1 t + b) := by
  simp only [fun i => (h i).1, fun i => (h i).2]
  have hb : ∑ t, c t * b1 t = ∑ t, max 0 (c t) * b1 t + ∑ t, min 0 (c t) * b1 t := by
    rw [← Finset.sum_add_distrib]
    refine Finset.sum_congr rfl fun t _ => ?_
    rw [← add_mul, max_comm, min_comm, pos_add_neg]
  simp only [fun i t => (posneg_mul (K1 i t) (c t)).1, fun i t => (posneg_mul (K1 i t) (c t)).2, Finset.sum_mul, Finset.sum_add_distrib, add_mul,
    mul_add, Finset.mul_sum, hb]
  have sw : ∀ F : μ → κ → α, ∑ i, ∑ t, F t i = ∑ t, ∑ i, F t i := fun F => Finset.sum_comm
  simp only [sw (fun t i => max 0 (c t) * max 0 (K1 i t) * u i), sw (fun t i => min 0 (c t) * min 0 (K1 i t) * u i),
    sw (fun t i => max 0 (c t) * min 0 (K1 i t) * l i), sw (fun t i => min 0 (c t) * max 0 (K1 i t) * l i), ← mul_assoc]
  ring

theorem two_steps' [Fintype κ] [Fintype μ] (K1 : κ → μ → α) (c : μ → α) (u l : κ → α)
    (h : ∀ i, max 0 (∑ t, K1 i t * c t) = ∑ t, max 0 (K1 i t * c t) ∧ min 0 (∑ t, K1 i t * c t) = ∑ t, min 0 (K1 i t * c t)) :
    ∑ t, max 0 (c t) * (∑ i, max 0 (K1 i t) * u i + ∑ i, min 0 (K1 i t) * l i) +
      ∑ t, min 0 (c t) * (∑ i, max 0 (K1 i t) * l i + ∑ i, min 0 (K1 i t) * u i) =
    ∑ i, max 0 (∑ t, K1 i t * c t) * u i + ∑ i, min 0 (∑ t, K1 i t * c t) * l i := by
  have := two_steps K1 (fun _ => 0) c 0 u l h
  simpa using this

theorem linMap_comp [Fintype κ] [Fintype μ] (K1 : κ → μ → α) (b1 : μ → α) (K2 : μ → ν → α) (b2 : ν → α) (f : Full X ι κ α)
    (h : ∀ i o, max 0 (∑ t, K1 i t * K2 t o) = ∑ t, max 0 (K1 i t * K2 t o) ∧ min 0 (∑ t, K1 i t * K2 t o) = ∑ t, min 0 (K1 i t * K2 t o)) :
    linMap m K2 b2 (linMap m K1 b1 f) = linMap m (fun i o => ∑ t, K1 i t * K2 t o) (fun o => ∑ t, K2 t o * b1 t + b2 o) f := by
  have k := fun o => two_steps K1 b1 (fun t => K2 t o) (b2 o)
  have k' := fun o => two_steps' K1 (fun t => K2 t o)
  unfold linMap
  cases m <;> simp only [getIbp, getAffine, if_true, if_false, Bool.false_eq_true] <;> congr 1 <;>
    first
    | (funext o; exact k o _ _ fun i => h i o)
    | (funext i o; exact k' o _ _ fun i => h i o)

/-- The sums of a row with at most one coefficient. -/
theorem row_single [Fintype μ] (c : μ → α) (h : ∀ t t', c t ≠ 0 → c t' ≠ 0 → t = t') :
    (∃ t, ∀ v w : μ → α, ∑ s, max 0 (c s) * v s + ∑ s, min 0 (c s) * w s = max 0 (c t) * v t + min 0 (c t) * w t) ∨
      ∀ v w : μ → α, ∑ s, max 0 (c s) * v s + ∑ s, min 0 (c s) * w s = 0 := by
  by_cases h0 : ∃ t, c t ≠ 0
  · obtain ⟨t, ht⟩ := h0
    have hz : ∀ t', t' ≠ t → c t' = 0 := fun t' hne => by
      by_contra hp; exact hne (h t' t hp ht)
    refine .inl ⟨t, fun v w => ?_⟩
    rw [Finset.sum_eq_single t (fun t' _ hne => by rw [hz t' hne]; simp) (fun h => absurd (Finset.mem_univ _) h),
      Finset.sum_eq_single t (fun t' _ hne => by rw [hz t' hne]; simp) (fun h => absurd (Finset.mem_univ _) h)]
  · push Not at h0
    exact .inr fun v w => by simp [h0]

/-- One affine form, scaled, against a constant. -/
theorem scaled_min (x : X) (hD : D.Scales x) (c b : α) (wu wl : ι → α) (bu bl u l : α) :
    min (max 0 c * u + min 0 c * l + b)
        (D.getUpper x (fun i => max 0 c * wu i + min 0 c * wl i) (max 0 c * bu + min 0 c * bl + b)) =
      max 0 c * min u (D.getUpper x wu bu) + min 0 c * max l (D.getLower x wl bl) + b ∧
    max (max 0 c * l + min 0 c * u + b)
        (D.getLower x (fun i => max 0 c * wl i + min 0 c * wu i) (max 0 c * bl + min 0 c * bu + b)) =
      max 0 c * max l (D.getLower x wl bl) + min 0 c * min u (D.getUpper x wu bu) + b := by
  rcases le_total 0 c with hc | hc
  · have h1 := ((hD c b wu bu).1 hc).1
    have h2 := ((hD c b wl bl).1 hc).2
    simp only [max_eq_right hc, min_eq_left hc, zero_mul, add_zero, h1, h2, min_add_add_right, max_add_add_right, mul_min_of_nonneg _ _ hc,
      mul_max_of_nonneg _ _ hc, and_self]
  · have h1 := ((hD c b wl bl).2 hc).1
    have h2 := ((hD c b wu bu).2 hc).2
    simp only [max_eq_left hc, min_eq_right hc, zero_mul, zero_add, h1, h2, min_add_add_right, max_add_add_right, mul_max_nonpos hc,
      mul_min_nonpos hc, and_self]

/-- A linear map whose outputs depend on one input each commutes with the tightening. -/
theorem tighten_linMap [Fintype μ] (K : μ → ν → α) (b : ν → α) (hK : ∀ o t t', K t o ≠ 0 → K t' o ≠ 0 → t = t') (f : Full X ι μ α)
    (hD : D.Scales f.x) : (linMap m K b f).tighten D m false true = linMap m K b (f.tighten D m false true) := by
  cases m with
  | ibp => rfl
  | affine => rfl
  | hybrid =>
    have hz : ∀ d : α, D.getUpper f.x (fun _ => 0) d = d ∧ D.getLower f.x (fun _ => 0) d = d := by
      intro d
      have := (hD 0 d (fun _ => 0) 0).1 le_rfl
      simpa using this
    have key : ∀ o, min (∑ t, max 0 (K t o) * f.uc t + ∑ t, min 0 (K t o) * f.lc t + b o)
          (D.getUpper f.x (fun i => ∑ t, max 0 (K t o) * f.wu i t + ∑ t, min 0 (K t o) * f.wl i t)
            (∑ t, max 0 (K t o) * f.bu t + ∑ t, min 0 (K t o) * f.bl t + b o)) =
        ∑ t, max 0 (K t o) * min (f.uc t) (D.getUpper f.x (fun i => f.wu i t) (f.bu t)) +
          ∑ t, min 0 (K t o) * max (f.lc t) (D.getLower f.x (fun i => f.wl i t) (f.bl t)) + b o ∧
        max (∑ t, max 0 (K t o) * f.lc t + ∑ t, min 0 (K t o) * f.uc t + b o)
          (D.getLower f.x (fun i => ∑ t, max 0 (K t o) * f.wl i t + ∑ t, min 0 (K t o) * f.wu i t)
            (∑ t, max 0 (K t o) * f.bl t + ∑ t, min 0 (K t o) * f.bu t + b o)) =
        ∑ t, max 0 (K t o) * max (f.lc t) (D.getLower f.x (fun i => f.wl i t) (f.bl t)) +
          ∑ t, min 0 (K t o) * min (f.uc t) (D.getUpper f.x (fun i => f.wu i t) (f.bu t)) + b o := by
      intro o
      rcases row_single (fun t => K t o) (hK o) with ⟨t, ht⟩ | ht
      · simp only [ht]
        exact scaled_min f.x hD _ _ _ _ _ _ _ _
      · simp only [ht, zero_add, (hz _).1, (hz _).2, min_self, max_self, and_self]
    simp only [Full.tighten, linMap, getIbp, getAffine, if_true, Bool.false_and, Bool.or_true, Bool.true_and, beq_self_eq_true,
      show (Mode.hybrid == Mode.affine) = false from rfl, Bool.false_eq_true, if_false, Full.mk.injEq, true_and, and_true]
    exact ⟨funext fun o => (key o).1, funext fun o => (key o).2⟩

/-- Two `Dense` layers, one of which has outputs that depend on one input each. -/
theorem denseT_comp [Fintype κ] [Fintype μ] (K1 : κ → μ → α) (b1 : μ → α) (K2 : μ → ν → α) (b2 : ν → α) (f : Full X ι κ α)
    (hD : D.Scales f.x)
    (h : (∀ o t t', K1 t o ≠ 0 → K1 t' o ≠ 0 → t = t') ∧ (∀ i t t', K1 i t ≠ 0 → K1 i t' ≠ 0 → t = t') ∨
      ∀ o t t', K2 t o ≠ 0 → K2 t' o ≠ 0 → t = t') :
    SameInfo D m (denseT D m false K2 b2 (denseT D m false K1 b1 f))
      (denseT D m false (fun i o => ∑ t, K1 i t * K2 t o) (fun o => ∑ t, K2 t o * b1 t + b2 o) f) := by
  have hx : ∀ (b : Bool), (f.tighten D m false b).x = f.x := fun b => by cases m <;> cases b <;> rfl
  have hxl : ∀ g : Full X ι κ α, (linMap m K1 b1 g).x = g.x := fun _ => rfl
  have hc : ∀ i o, max 0 (∑ t, K1 i t * K2 t o) = ∑ t, max 0 (K1 i t * K2 t o) ∧
      min 0 (∑ t, K1 i t * K2 t o) = ∑ t, min 0 (K1 i t * K2 t o) := fun i o => posneg_single _ fun t t' ht ht' => by
    rcases h with h | h
    · exact h.2 i t t' (left_ne_zero_of_mul ht) (left_ne_zero_of_mul ht')
    · exact h o t t' (right_ne_zero_of_mul ht) (right_ne_zero_of_mul ht')
  rcases h with h | h
  · have e : (denseT D m false K1 b1 f).tighten D m false true = denseT D m false K1 b1 f := by
      rw [denseT_eq, tighten_linMap K1 b1 h.1 _ (by rw [hx]; exact hD), tighten_twice]
    refine SameInfo.of_agree ?_
    rw [denseT_eq K2, e, denseT_eq, denseT_eq, linMap_comp K1 b1 K2 b2 _ hc]
    exact Agree.rfl'
  · unfold SameInfo
    rw [denseT_eq K2, denseT_eq K1, denseT_eq, ← linMap_comp K1 b1 K2 b2 _ hc, tighten_linMap K2 b2 h, tighten_linMap K2 b2 h, tighten_twice]
    · exact Agree.rfl'
    · rw [hxl, hx]; exact hD
    · have : ∀ g : Full X ι μ α, (g.tighten D m false true).x = g.x := fun g => by cases m <;> rfl
      rw [this, hxl, hx]; exact hD

end Tensors

end Decomon
