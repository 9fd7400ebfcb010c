import Verif.Model.Pooling
import Verif.Lemmas.Layers
import Verif.Props.Layers
import Mathlib.Logic.Equiv.Basic
import Mathlib.Tactic.FinCases

/-! Helper lemmas for reductions, sorting and the hull of max. -/

namespace Decomon

section SortRel
variable {β γ : Type*} {R : β → γ → Prop} {mx mn : β → β → β} {mx' mn' : γ → γ → γ}

theorem sortNet_rel (hmx : ∀ a a' b b', R a b → R a' b' → R (mx a a') (mx' b b'))
    (hmn : ∀ a a' b b', R a b → R a' b' → R (mn a a') (mn' b b')) (n : ℕ) (s : ℕ → β) (t : ℕ → γ)
    (h : ∀ i, R (s i) (t i)) : ∀ i, R (sortNet mx mn n s i) (sortNet mx' mn' n t i) := by
  have step : ∀ (s : ℕ → β) (t : ℕ → γ) ij, (∀ i, R (s i) (t i)) →
      ∀ i, R (sortStep mx mn s ij i) (sortStep mx' mn' t ij i) := by
    intro s t ij h i
    unfold sortStep
    by_cases h1 : i = ij.1
    · subst h1; simpa using hmn _ _ _ _ (h _) (h _)
    · by_cases h2 : i = ij.2
      · subst h2; simpa [h1] using hmx _ _ _ _ (h _) (h _)
      · simpa [h1, h2] using h i
  have inner : ∀ (l : List ℕ) i (s : ℕ → β) (t : ℕ → γ), (∀ i, R (s i) (t i)) →
      ∀ k, R (l.foldl (fun s j => sortStep mx mn s (i, j)) s k) (l.foldl (fun s j => sortStep mx' mn' s (i, j)) t k) := by
    intro l i
    induction l with
    | nil => intro s t h k; exact h k
    | cons a l ih => intro s t h k; exact ih _ _ (step s t (i, a) h) k
  have outer : ∀ (l : List ℕ) (s : ℕ → β) (t : ℕ → γ), (∀ i, R (s i) (t i)) →
      ∀ k, R (l.foldl (fun s i => sortInner mx mn n i s) s k) (l.foldl (fun s i => sortInner mx' mn' n i s) t k) := by
    intro l
    induction l with
    | nil => intro s t h k; exact h k
    | cons a l ih => intro s t h k; exact ih _ _ (inner _ a s t h) k
  exact outer _ s t h

end SortRel

section SortOrd
variable {α : Type*} [LinearOrder α]

theorem sortStep_eq (s : ℕ → α) (i j : ℕ) (hij : i ≠ j) :
    sortStep max min s (i, j) = s ∨ sortStep max min s (i, j) = s ∘ Equiv.swap i j := by
  unfold sortStep
  rcases le_total (s i) (s j) with h | h
  · left; simp [h]
  · right
    funext k
    by_cases h1 : k = i
    · subst h1; simp [h]
    · by_cases h2 : k = j
      · subst h2; simp [h1, h]
      · simp [h1, h2, Equiv.swap_apply_of_ne_of_ne h1 h2]

/-- What the inner loop does. -/
theorem sortInner_spec (n i : ℕ) (hi : i < n) (s : ℕ → α) :
    (∀ k, i < k → k < n → sortInner max min n i s i ≤ sortInner max min n i s k) ∧
    (∀ k, k < i → sortInner max min n i s k = s k) ∧
    (∃ σ : Equiv.Perm ℕ, (∀ k, k < i ∨ n ≤ k → σ k = k) ∧ sortInner max min n i s = s ∘ σ) := by
  have key : ∀ m, i + 1 + m ≤ n →
      let r := (List.range' (i + 1) m).foldl (fun s j => sortStep max min s (i, j)) s
      (∀ k, i < k → k < i + 1 + m → r i ≤ r k) ∧
      (∃ σ : Equiv.Perm ℕ, (∀ k, k < i ∨ n ≤ k → σ k = k) ∧ r = s ∘ σ) := by
    intro m
    induction m with
    | zero => intro _; exact ⟨fun k h1 h2 => by omega, Equiv.refl _, fun _ _ => rfl, rfl⟩
    | succ m ih =>
      intro hm
      obtain ⟨h1, σ, h2, h3⟩ := ih (by omega)
      simp only [List.range'_concat, List.foldl_append, List.foldl_cons, List.foldl_nil, one_mul]
      set r := (List.range' (i + 1) m).foldl (fun s j => sortStep max min s (i, j)) s with hr
      have hne : i ≠ i + 1 + m := by omega
      refine ⟨fun k hk1 hk2 => ?_, ?_⟩
      · by_cases hk : k = i + 1 + m
        · subst hk
          simp only [sortStep, Function.update_self, ne_eq, hne.symm, not_false_eq_true, Function.update_of_ne]
          exact le_trans (min_le_left _ _) (le_max_left _ _)
        · have hki : k ≠ i := by omega
          simp only [sortStep, Function.update_self, ne_eq, hk, hki, not_false_eq_true, Function.update_of_ne]
          exact le_trans (min_le_left _ _) (h1 k hk1 (by omega))
      · rcases sortStep_eq r i (i + 1 + m) hne with h | h
        · exact ⟨σ, h2, by rw [h, h3]⟩
        · refine ⟨(Equiv.swap i (i + 1 + m)).trans σ, fun k hk => ?_, ?_⟩
          · rw [Equiv.trans_apply, Equiv.swap_apply_of_ne_of_ne (by omega) (by omega)]
            exact h2 k hk
          · rw [h, h3]; rfl
  obtain ⟨h1, σ, h2, h3⟩ := key (n - (i + 1)) (by omega)
  refine ⟨fun k hk1 hk2 => h1 k hk1 (by omega), fun k hk => ?_, σ, h2, h3⟩
  have := congrFun h3 k
  simp only [Function.comp, h2 k (Or.inl hk)] at this
  exact this

theorem sortNet_spec (n : ℕ) (s : ℕ → α) :
    (∀ a b, a < b → b < n → sortNet max min n s a ≤ sortNet max min n s b) ∧
    (∃ σ : Equiv.Perm ℕ, (∀ k, n ≤ k → σ k = k) ∧ sortNet max min n s = s ∘ σ) := by
  have key : ∀ m, m ≤ n - 1 →
      let r := (List.range m).foldl (fun s i => sortInner max min n i s) s
      (∀ a b, a < m → a < b → b < n → r a ≤ r b) ∧
      (∃ σ : Equiv.Perm ℕ, (∀ k, n ≤ k → σ k = k) ∧ r = s ∘ σ) := by
    intro m
    induction m with
    | zero => intro _; exact ⟨fun a b h => by omega, Equiv.refl _, fun _ _ => rfl, rfl⟩
    | succ m ih =>
      intro hm
      obtain ⟨h1, σ, h2, h3⟩ := ih (by omega)
      simp only [List.range_succ, List.foldl_append, List.foldl_cons, List.foldl_nil]
      set r := (List.range m).foldl (fun s i => sortInner max min n i s) s with hr
      obtain ⟨g1, g2, τ, g3, g4⟩ := sortInner_spec n m (by omega) r
      refine ⟨fun a b ha hab hb => ?_, τ.trans σ, fun k hk => ?_, ?_⟩
      · by_cases ham : a = m
        · subst ham; exact g1 b hab hb
        · have ha' : a < m := by omega
          rw [g2 a ha']
          rw [g4]
          simp only [Function.comp]
          refine h1 a _ ha' ?_ ?_
          · by_contra hc
            have hlt : τ b < m := by omega
            have := g3 (τ b) (Or.inl hlt)
            have := τ.injective this
            omega
          · by_contra hc
            have := g3 (τ b) (Or.inr (by omega))
            have := τ.injective this
            omega
      · rw [Equiv.trans_apply, g3 k (Or.inr hk), h2 k hk]
      · rw [g4, h3]; rfl
  obtain ⟨h1, h2⟩ := key (n - 1) le_rfl
  exact ⟨fun a b hab hb => h1 a b (by omega) hab hb, h2⟩

/-- `foldl max` is the greatest element. -/
theorem foldl_max_spec (l : List α) (a : α) :
    (l.foldl max a = a ∨ l.foldl max a ∈ l) ∧ a ≤ l.foldl max a ∧ ∀ x ∈ l, x ≤ l.foldl max a := by
  induction l generalizing a with
  | nil => simp
  | cons b t ih =>
    obtain ⟨h1, h2, h3⟩ := ih (max a b)
    simp only [List.foldl_cons, List.mem_cons]
    refine ⟨?_, (le_max_left _ _).trans h2, ?_⟩
    · rcases h1 with h | h
      · rw [h]
        rcases le_total a b with hab | hab
        · right; left; exact max_eq_right hab
        · left; exact max_eq_left hab
      · right; right; exact h
    · rintro x (rfl | hx)
      · exact (le_max_right _ _).trans h2
      · exact h3 x hx

theorem foldl_min_spec (l : List α) (a : α) :
    (l.foldl min a = a ∨ l.foldl min a ∈ l) ∧ l.foldl min a ≤ a ∧ ∀ x ∈ l, l.foldl min a ≤ x :=
  foldl_max_spec (α := αᵒᵈ) l a

theorem foldl_max_ofFn {n : ℕ} (z : Fin (n + 1) → α) :
    (List.ofFn fun i : Fin n => z i.succ).foldl max (z 0) = Finset.univ.sup' Finset.univ_nonempty z := by
  obtain ⟨h1, h2, h3⟩ := foldl_max_spec (List.ofFn fun i : Fin n => z i.succ) (z 0)
  apply le_antisymm
  · rcases h1 with h | h
    · rw [h]; exact Finset.le_sup' z (Finset.mem_univ 0)
    · rw [List.mem_ofFn] at h
      obtain ⟨i, hi⟩ := h
      rw [← hi]; exact Finset.le_sup' z (Finset.mem_univ _)
  · refine Finset.sup'_le _ _ fun i _ => ?_
    refine Fin.cases h2 (fun j => h3 _ ?_) i
    rw [List.mem_ofFn]; exact ⟨j, rfl⟩

end SortOrd

end Decomon
