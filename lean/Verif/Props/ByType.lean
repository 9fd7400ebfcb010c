import Verif.Model.ByType
import Mathlib.Data.Fintype.BigOperators
import Mathlib.Algebra.Order.Field.Rat

/-! Property C103: the lists by type and the inputs one by one. -/

namespace Decomon

section
variable {X ι κ α : Type*} [LinearOrder α]

theorem loop_frame (D : PertDomain X ι α) (m : Mode) (t : List (Full X ι κ α)) : ∀ (s : ByType X ι κ α) (i : ℕ),
    (byTypeLoop D m s i t).fs = s.fs ∧ (byTypeLoop D m s i t).uc = s.uc ∧ (byTypeLoop D m s i t).lc = s.lc ∧
    (byTypeLoop D m s i t).h = s.h ∧ (byTypeLoop D m s i t).g = s.g ∧
    ∀ c, c ≠ s.uc → c ≠ s.lc → (byTypeLoop D m s i t).cells c = s.cells c := by
  induction t with
  | nil => intro s i; exact ⟨rfl, rfl, rfl, rfl, rfl, fun _ _ _ => rfl⟩
  | cons f t ih =>
    intro s i
    obtain ⟨h1, h2, h3, h4, h5, h6⟩ := ih (byTypeStep D m s i f) (i + 1)
    refine ⟨h1, h2, h3, h4, h5, fun c hu hl => ?_⟩
    rw [byTypeLoop, h6 c hu hl]
    simp [byTypeStep, writeCell, Function.update_of_ne hu, Function.update_of_ne hl]

theorem set_prefix {β : Type*} (P S : List β) (a v : β) : (P ++ a :: S).set P.length v = P ++ v :: S := by
  induction P with
  | nil => rfl
  | cons b P ih => simp [ih]

theorem getD_prefix {β : Type*} (P S : List β) (a d : β) : (P ++ a :: S).getD P.length d = a := by simp

/-- The loop in hybrid mode. -/
theorem loop_hybrid (D : PertDomain X ι α) (c : Bool) (t : List (Full X ι κ α)) : ∀ (s : ByType X ι κ α) (U L : List (κ → α)),
    s.uc ≠ s.lc → U.length = L.length → s.cells s.uc = U ++ t.map Full.uc → s.cells s.lc = L ++ t.map Full.lc →
    (byTypeLoop D .hybrid s U.length t).cells s.uc = U ++ t.map (fun f => (f.tighten D .hybrid c true).uc) ∧
    (byTypeLoop D .hybrid s U.length t).cells s.lc = L ++ t.map (fun f => (f.tighten D .hybrid c true).lc) := by
  induction t with
  | nil => intro s U L _ _ hu hl; exact ⟨hu, hl⟩
  | cons f t ih =>
    intro s U L hne hlen hu hl
    set s' := byTypeStep D .hybrid s U.length f with hs'
    have e1 : s'.uc = s.uc := rfl
    have e2 : s'.lc = s.lc := rfl
    have cu : s'.cells s'.uc = (U ++ [(f.tighten D .hybrid c true).uc]) ++ t.map Full.uc := by
      rw [e1]
      simp only [hs', byTypeStep, writeCell, Function.update_of_ne hne, Function.update_self, hu, List.map_cons, set_prefix, getD_prefix]
      simp [Full.tighten]
    have cl : s'.cells s'.lc = (L ++ [(f.tighten D .hybrid c true).lc]) ++ t.map Full.lc := by
      rw [e2]
      simp only [hs', byTypeStep, writeCell, Function.update_self, Function.update_of_ne (Ne.symm hne), hl, hlen, List.map_cons, set_prefix,
        getD_prefix]
      simp [Full.tighten]
    have := ih s' (U ++ [(f.tighten D .hybrid c true).uc]) (L ++ [(f.tighten D .hybrid c true).lc]) hne (by simp [hlen]) cu cl
    simp only [List.length_append, List.length_cons, List.length_nil, List.append_assoc, List.singleton_append, zero_add] at this
    exact this

/-- The loop in affine mode: one list. -/
theorem loop_affine (D : PertDomain X ι α) (b : Bool) (e : κ → α) (t : List (Full X ι κ α)) : ∀ (s : ByType X ι κ α) (L : List (κ → α)),
    s.uc = s.lc → s.cells s.lc = L ++ List.replicate t.length e →
    (byTypeLoop D .affine s L.length t).cells s.lc = L ++ t.map (fun f => (f.tighten D .affine true b).lc) := by
  induction t with
  | nil => intro s L _ hl; exact hl
  | cons f t ih =>
    intro s L heq hl
    set s' := byTypeStep D .affine s L.length f with hs'
    have cl : s'.cells s'.lc = (L ++ [(f.tighten D .affine true b).lc]) ++ List.replicate t.length e := by
      have e2 : s'.lc = s.lc := rfl
      rw [e2]
      simp only [hs', byTypeStep, writeCell, heq, Function.update_self, hl, List.length_cons, List.replicate_succ, set_prefix, if_true]
      simp [Full.tighten]
    have := ih s' (L ++ [(f.tighten D .affine true b).lc]) heq cl
    simp only [List.length_append, List.length_cons, List.length_nil, List.append_assoc, List.singleton_append, zero_add] at this
    exact this

/-- C103: outside affine mode with `compute_ibp_from_affine=True`, the constants of the two views agree, for every number of inputs, as far as the
mode carries them (in affine mode without the computation they are the empty tensor); `h` and `g` are those of the inputs with
`dc_decomp=True`.  Missing with respect to the full claim: the excluded case, where it is false (`C103_affine_refuted`). -/
theorem C103_by_type_partial (D : PertDomain X ι α) (m : Mode) (dc compute tight : Bool) (hx : ¬ (m = .affine ∧ compute = true)) (e : κ → α)
    (fs : List (Full X ι κ α)) :
    let r := byTypeRun D m dc compute tight e fs
    (m ≠ .affine → r.cells r.uc = fs.map (fun f => (f.tighten D m compute tight).uc) ∧
      r.cells r.lc = fs.map (fun f => (f.tighten D m compute tight).lc)) ∧
    (m = .affine → r.cells r.uc = fs.map (fun _ => e) ∧ r.cells r.lc = fs.map (fun _ => e)) ∧
    (dc = true → r.cells r.h = fs.map Full.h ∧ r.cells r.g = fs.map Full.g) := by
  intro r
  by_cases hrun : ((compute && m == .affine) || (tight && m == .hybrid)) = true
  · have hm : m = .hybrid ∧ tight = true := by
      cases m <;> simp_all
    obtain ⟨rfl, rfl⟩ := hm
    have hr : r = byTypeLoop D .hybrid (byTypeCells .hybrid dc e fs) 0 fs := by
      simp only [r, byTypeRun]; exact if_pos hrun
    obtain ⟨-, h2, h3, h4, h5, h6⟩ := loop_frame D .hybrid fs (byTypeCells .hybrid dc e fs) 0
    have key := loop_hybrid D compute fs (byTypeCells .hybrid dc e fs) [] [] (by simp [byTypeCells]) rfl (by simp [byTypeCells]) (by simp [byTypeCells])
    refine ⟨fun _ => ?_, fun h => absurd h (by simp), fun hdc => ?_⟩
    · rw [hr, h2, h3]
      simpa using key
    · subst hdc
      rw [hr, h4, h5, h6 _ (by simp [byTypeCells]) (by simp [byTypeCells]), h6 _ (by simp [byTypeCells]) (by simp [byTypeCells])]
      simp [byTypeCells]
  · have hr : r = byTypeCells m dc e fs := by
      simp only [r, byTypeRun]; exact if_neg hrun
    have ht : ∀ f : Full X ι κ α, f.tighten D m compute tight = f := fun f => by
      unfold Full.tighten; exact if_neg hrun
    rw [hr]
    refine ⟨fun hm => ?_, fun hm => ?_, fun hdc => ?_⟩
    · simp [byTypeCells, hm, ht]
    · simp [byTypeCells, hm]
    · simp [byTypeCells, hdc]

/-- C103: in affine mode with `compute_ibp_from_affine=True`, for every domain, number of inputs and tensors, both lists of constants hold the
lower constants (and so do `h` and `g` without `dc_decomp`): the upper constants are right only if they are equal to the lower ones. -/
theorem C103_affine_refuted (D : PertDomain X ι α) (dc tight : Bool) (e : κ → α) (fs : List (Full X ι κ α)) :
    let r := byTypeRun D .affine dc true tight e fs
    r.cells r.lc = fs.map (fun f => (f.tighten D .affine true tight).lc) ∧
    (r.cells r.uc = fs.map (fun f => (f.tighten D .affine true tight).uc) ↔
      ∀ f ∈ fs, (f.tighten D .affine true tight).uc = (f.tighten D .affine true tight).lc) ∧
    (dc = false → r.cells r.h = r.cells r.lc ∧ r.cells r.g = r.cells r.lc) := by
  intro r
  have hr : r = byTypeLoop D .affine (byTypeCells .affine dc e fs) 0 fs := rfl
  obtain ⟨-, h2, h3, h4, h5, -⟩ := loop_frame D .affine fs (byTypeCells .affine dc e fs) 0
  have key := loop_affine D tight e fs (byTypeCells .affine dc e fs) [] rfl (by simp [byTypeCells])
  have hl : r.cells r.lc = fs.map (fun f => (f.tighten D .affine true tight).lc) := by
    rw [hr, h3]; simpa using key
  have hul : r.uc = r.lc := by rw [hr, h2, h3]; rfl
  refine ⟨hl, ?_, fun hdc => ?_⟩
  · rw [hul, hl, List.map_inj_left]
    exact ⟨fun h f hf => (h f hf).symm, fun h f hf => (h f hf).symm⟩
  · subst hdc
    have : r.h = r.lc ∧ r.g = r.lc := by rw [hr, h3, h4, h5]; exact ⟨rfl, rfl⟩
    rw [this.1, this.2]; exact ⟨rfl, rfl⟩

end

/-- Non-vacuity of C103: two inputs over the box [0,1], `y = z` and `y = 2z`: the upper constants 1 and 2 become 0 and 0. -/
example :
    let f (a : ℚ) : Full ((Fin 1 → ℚ) × (Fin 1 → ℚ)) (Fin 1) (Fin 1) ℚ :=
      ⟨(fun _ => 0, fun _ => 1), fun _ => 0, fun _ _ => a, fun _ => 0, fun _ => 0, fun _ _ => a, fun _ => 0, fun _ => 0, fun _ => 0⟩
    let r := byTypeRun boxDomain .affine false true true (fun _ => 0) [f 1, f 2]
    (r.cells r.uc).map (fun v => v 0) = [0, 0] ∧ [f 1, f 2].map (fun g => (g.tighten boxDomain .affine true true).uc 0) = [1, 2] ∧
    let r' := byTypeRun boxDomain .hybrid false true true (fun _ => 0) [f 1, f 2]
    (r'.cells r'.lc).map (fun v => v 0) = [0, 0] := by
  decide +kernel

end Decomon
