import Verif.Model.Names
import Mathlib.Data.List.Basic

/-! Property C117: the layers of the converted model have distinct names. -/

namespace Decomon

/-! ### Specification -/

/-- Whether a layer is split: it has a fused activation. -/
def LayerObj.Fused {V : Type*} (o : LayerObj V) : Prop := o.isActivation = false ∧ ∃ a, o.act = some a ∧ a ≠ "linear"

/-- A name with a number at its end. -/
def Numbered (c : ℕ) (s : String) : Prop := ∃ b, s = b ++ "_" ++ toString c

/-- A name followed by an underscore and anything else. -/
def Extends (a b : String) : Prop := ∃ t, b = a ++ "_" ++ t

/-- The layers of a chain, those of its nested models included. -/
def NChain.layers : NChain → List ℕ
  | .nil => []
  | .layer i rest => i :: rest.layers
  | .model sub rest => sub.layers ++ rest.layers

open Classical in
/-- The number of layers with a fused activation among the layers of a chain, those of its nested models excluded. -/
noncomputable def NChain.fused {V : Type*} (h : Heap V) : NChain → ℕ
  | .nil => 0
  | .layer i rest => (if (h.obj i).Fused then 1 else 0) + rest.fused h
  | .model _ rest => rest.fused h

/-- Every nested model, at any depth, has at most `n` layers with a fused activation. -/
def NChain.FewFused {V : Type*} (h : Heap V) (n : ℕ) : NChain → Prop
  | .nil => True
  | .layer _ rest => rest.FewFused h n
  | .model sub rest => sub.fused h ≤ n ∧ sub.FewFused h n ∧ rest.FewFused h n

/-! ### Numbers at the end of names -/

theorem split_last {α : Type*} (u : α) : ∀ (l m x y : List α), u ∉ x → u ∉ y → l ++ u :: x = m ++ u :: y → l = m ∧ x = y := by
  intro l m x y hx hy h
  have h' := congrArg List.reverse h
  simp only [List.reverse_append, List.reverse_cons, List.append_assoc, List.cons_append, List.nil_append] at h'
  have key : ∀ (a b c d : List α), u ∉ a → u ∉ b → a ++ u :: c = b ++ u :: d → a = b ∧ c = d := by
    intro a
    induction a with
    | nil =>
      intro b c d _ hb e
      cases b with
      | nil => simpa using e
      | cons w t => simp at e; exact absurd e.1 (fun q => hb (by simp [q]))
    | cons w t ih =>
      intro b c d ha hb e
      cases b with
      | nil => simp at e; exact absurd e.1 (fun q => ha (by simp [q]))
      | cons w' t' =>
        simp only [List.cons_append, List.cons.injEq] at e
        obtain ⟨e1, e2⟩ := ih t' c d (fun q => ha (by simp [q])) (fun q => hb (by simp [q])) e.2
        exact ⟨by rw [e.1, e1], e2⟩
  obtain ⟨e1, e2⟩ := key x.reverse y.reverse l.reverse m.reverse (by simpa) (by simpa) (by simpa using h')
  exact ⟨List.reverse_injective e2, List.reverse_injective e1⟩

/-- A name ends with one number at most. -/
theorem numbered_inj {c d : ℕ} {s : String} (hc : Numbered c s) (hd : Numbered d s) : c = d := by
  obtain ⟨b, rfl⟩ := hc
  obtain ⟨b', e⟩ := hd
  have e := congrArg String.toList e
  simp only [String.toList_append, Nat.toString_eq_ofList_toDigits, String.toList_ofList] at e
  have hu : "_".toList = ['_'] := rfl
  rw [hu, List.append_assoc, List.append_assoc] at e
  have := (split_last '_' _ _ _ _ Nat.underscore_not_in_toDigits Nat.underscore_not_in_toDigits e).2
  rw [← Nat.ofDigitChars_ten_toDigits (n := c), this, Nat.ofDigitChars_ten_toDigits]

theorem Extends.trans {a b c : String} (h : Extends a b) (h' : c = b ∨ Extends b c) : Extends a c := by
  obtain ⟨t, rfl⟩ := h
  rcases h' with rfl | ⟨t', rfl⟩
  · exact ⟨t, rfl⟩
  · exact ⟨t ++ "_" ++ t', by simp only [String.append_assoc]⟩

theorem Extends.trans' {a b c : String} (h : b = a ∨ Extends a b) (h' : Extends b c) : Extends a c := by
  rcases h with rfl | h
  · exact h'
  · exact h.trans (.inr h')

theorem eqOrExtends_trans {a b c : String} (h : b = a ∨ Extends a b) (h' : c = b ∨ Extends b c) : c = a ∨ Extends a c := by
  rcases h with rfl | h
  · exact h'
  · exact .inr (h.trans h')

/-! ### The loop -/

section Loop
variable {V : Type*}

/-- The objects of `U` exist and their names end with distinct numbers below `count`. -/
def Tagged (h : Heap V) (count : ℕ) (U : ℕ → Prop) : Prop :=
  ∃ tag : ℕ → ℕ, (∀ o, U o → o < h.next ∧ tag o < count ∧ Numbered (tag o) (h.obj o).name) ∧ ∀ o o', U o → U o' → tag o = tag o' → o = o'

theorem Tagged.mono {h : Heap V} {c d : ℕ} {U : ℕ → Prop} (t : Tagged h c U) (hcd : c ≤ d) : Tagged h d U := by
  obtain ⟨tag, h1, h2⟩ := t
  exact ⟨tag, fun o ho => ⟨(h1 o ho).1, (h1 o ho).2.1.trans_le hcd, (h1 o ho).2.2⟩, h2⟩

theorem Tagged.rename {h : Heap V} {c : ℕ} {U : ℕ → Prop} (t : Tagged h c U) (i : ℕ) (hi : i < h.next) :
    Tagged { h with obj := Function.update h.obj i { h.obj i with name := (h.obj i).name ++ "_" ++ toString c } } (c + 1)
      (fun o => U o ∨ o = i) := by
  obtain ⟨tag, h1, h2⟩ := t
  refine ⟨Function.update tag i c, fun o ho => ?_, fun o o' ho ho' e => ?_⟩
  · by_cases hoi : o = i
    · subst hoi
      simp only [Function.update_self]
      exact ⟨hi, Nat.lt_succ_self c, (h.obj o).name, rfl⟩
    · have := h1 o (ho.resolve_right hoi)
      simp only [Function.update_of_ne hoi]
      exact ⟨this.1, this.2.1.trans (Nat.lt_succ_self c), this.2.2⟩
  · by_cases hoi : o = i <;> by_cases hoi' : o' = i
    · rw [hoi, hoi']
    · subst hoi
      rw [Function.update_self, Function.update_of_ne hoi'] at e
      exact absurd (h1 o' (ho'.resolve_right hoi')).2.1 (by omega)
    · subst hoi'
      rw [Function.update_self, Function.update_of_ne hoi] at e
      exact absurd (h1 o (ho.resolve_right hoi)).2.1 (by omega)
    · rw [Function.update_of_ne hoi, Function.update_of_ne hoi'] at e
      exact h2 o o' (ho.resolve_right hoi) (ho'.resolve_right hoi') e

theorem renameAll_spec (l : List ℕ) : ∀ (h : Heap V) (c : ℕ) (U : ℕ → Prop), Tagged h c U → (∀ i ∈ l, i < h.next) →
    (renameAll h c l).1.next = h.next ∧ (renameAll h c l).2 = c + l.length ∧ Tagged (renameAll h c l).1 (c + l.length) (fun o => U o ∨ o ∈ l) ∧
    (∀ o, ((renameAll h c l).1.obj o).act = (h.obj o).act ∧ ((renameAll h c l).1.obj o).isActivation = (h.obj o).isActivation) ∧
    ∀ o, (((renameAll h c l).1.obj o).name = (h.obj o).name ∨ Extends (h.obj o).name ((renameAll h c l).1.obj o).name) ∧
      (o ∈ l → Extends (h.obj o).name ((renameAll h c l).1.obj o).name) := by
  induction l with
  | nil => intro h c U t _; exact ⟨rfl, rfl, by simpa [renameAll] using t, fun o => ⟨rfl, rfl⟩, fun o => ⟨.inl rfl, by simp⟩⟩
  | cons i l ih =>
    intro h c U t hl
    obtain ⟨a1, a2, a3, a4, a5⟩ := ih _ (c + 1) _ (t.rename i (hl i (by simp))) (fun j hj => hl j (by simp [hj]))
    refine ⟨a1, ?_, ?_, fun o => ?_, fun o => ?_⟩
    · rw [renameAll, a2, List.length_cons]; omega
    · rw [renameAll, List.length_cons, show c + (l.length + 1) = c + 1 + l.length by omega]
      obtain ⟨tag, h1, h2⟩ := a3
      refine ⟨tag, fun o ho => h1 o ?_, fun o o' ho ho' => h2 o o' ?_ ?_⟩
      · rcases ho with h | h
        · exact .inl (.inl h)
        · rcases List.mem_cons.mp h with h | h
          · exact .inl (.inr h)
          · exact .inr h
      · rcases ho with h | h
        · exact .inl (.inl h)
        · rcases List.mem_cons.mp h with h | h
          · exact .inl (.inr h)
          · exact .inr h
      · rcases ho' with h | h
        · exact .inl (.inl h)
        · rcases List.mem_cons.mp h with h | h
          · exact .inl (.inr h)
          · exact .inr h
    · have := a4 o
      rw [renameAll]
      by_cases hoi : o = i
      · subst hoi; simpa using this
      · simpa [Function.update_of_ne hoi] using this
    · have := a5 o
      rw [renameAll]
      by_cases hoi : o = i
      · subst hoi
        simp only [Function.update_self] at this
        have h1 : Extends (h.obj o).name ((h.obj o).name ++ "_" ++ toString c) := ⟨toString c, rfl⟩
        exact ⟨.inr (h1.trans this.1), fun _ => h1.trans this.1⟩
      · simp only [Function.update_of_ne hoi] at this
        exact ⟨this.1, fun ho => this.2 ((List.mem_cons.mp ho).resolve_left hoi)⟩

open Classical in
/-- The number of layers that a layer is converted to. -/
noncomputable def LayerObj.parts (o : LayerObj V) : ℕ := if o.Fused then 2 else 1

theorem splitActivation_spec (h : Heap V) (i : ℕ) (hi : i < h.next) :
    (∀ j ∈ (splitActivation h i).2, j < (splitActivation h i).1.next) ∧ h.next ≤ (splitActivation h i).1.next ∧
    (∀ o, o < h.next → (splitActivation h i).1.obj o = h.obj o) ∧ (splitActivation h i).2.length = (h.obj i).parts ∧
    ∀ j ∈ (splitActivation h i).2, ((splitActivation h i).1.obj j).name = (h.obj i).name ∨
      Extends (h.obj i).name ((splitActivation h i).1.obj j).name := by
  unfold splitActivation LayerObj.parts LayerObj.Fused
  cases e : (h.obj i).act with
  | none => simp [hi]
  | some a =>
    dsimp only
    by_cases hc : a = "linear" ∨ (h.obj i).isActivation = true
    · rw [if_pos hc, if_neg (by rintro ⟨h1, b, hb, h2⟩; cases hb; rcases hc with hc | hc <;> simp_all)]
      simp [hi]
    · rw [if_neg hc, if_pos (by
        rw [not_or] at hc
        exact ⟨by simpa using hc.2, a, rfl, hc.1⟩)]
      refine ⟨by simp, by simp, fun o ho => ?_, rfl, fun j hj => .inr ?_⟩
      · have h1 : o ≠ h.next + 1 := by omega
        have h2 : o ≠ h.next := by omega
        dsimp only
        rw [Function.update_of_ne h1, Function.update_of_ne h2]
      · rcases List.mem_cons.mp hj with rfl | hj
        · refine ⟨"wo_activation", ?_⟩
          dsimp only
          rw [Function.update_of_ne (by simp), Function.update_self, String.append_assoc]
          rfl
        · rw [List.mem_singleton.mp hj]
          refine ⟨"activation", ?_⟩
          dsimp only
          rw [Function.update_self, String.append_assoc]
          rfl

/-- What the loop keeps: the converted layers have distinct numbers; the user's layers exist and keep everything but their names; the layers
found in `layer2layer_map` are as many as a conversion gives. -/
structure LoopInv (h0 : Heap V) (L : List ℕ) (st : CloneState V) (U : ℕ → Prop) : Prop where
  tagged : Tagged st.heap st.count U
  next : h0.next ≤ st.heap.next
  same : ∀ o, o < h0.next → (st.heap.obj o).act = (h0.obj o).act ∧ (st.heap.obj o).isActivation = (h0.obj o).isActivation
  user : ∀ o, o < h0.next → (st.heap.obj o).name = (h0.obj o).name ∨ Extends (h0.obj o).name (st.heap.obj o).name
  base : ∀ o, U o → ∃ i ∈ L, Extends (h0.obj i).name (st.heap.obj o).name
  cache : ∀ i l, st.cache i = some l → i < h0.next → (∀ o ∈ l, U o) ∧ l.length = (h0.obj i).parts

theorem cloneStep_inv {h0 : Heap V} {L : List ℕ} {st : CloneState V} {U : ℕ → Prop} (v : LoopInv h0 L st U) (i : ℕ) (hi : i < h0.next)
    (hL : i ∈ L) : LoopInv h0 L (cloneStep st i).1 (fun o => U o ∨ o ∈ (cloneStep st i).2) ∧
    (cloneStep st i).1.count = st.count + (h0.obj i).parts := by
  have hparts : (st.heap.obj i).parts = (h0.obj i).parts := by
    unfold LayerObj.parts LayerObj.Fused
    rw [(v.same i hi).1, (v.same i hi).2]
  -- the objects before renaming
  have hc : let c := convertedOf st.heap st.cache i
      (∀ j ∈ c.2, j < c.1.next) ∧ st.heap.next ≤ c.1.next ∧ (∀ o, o < st.heap.next → c.1.obj o = st.heap.obj o) ∧
      c.2.length = (h0.obj i).parts ∧ ∀ j ∈ c.2, ∃ k ∈ L, (c.1.obj j).name = (h0.obj k).name ∨ Extends (h0.obj k).name (c.1.obj j).name := by
    unfold convertedOf
    cases e : st.cache i with
    | none =>
      have := splitActivation_spec st.heap i (hi.trans_le v.next)
      refine ⟨this.1, this.2.1, this.2.2.1, by rw [← hparts]; exact this.2.2.2.1, fun j hj => ⟨i, hL, ?_⟩⟩
      exact eqOrExtends_trans (v.user i hi) (this.2.2.2.2 j hj)
    | some l =>
      obtain ⟨h1, h2⟩ := v.cache i l e hi
      obtain ⟨tag, h3, -⟩ := v.tagged
      exact ⟨fun j hj => (h3 j (h1 j hj)).1, le_rfl, fun _ _ => rfl, h2, fun j hj => (v.base j (h1 j hj)).imp fun k hk => ⟨hk.1, .inr hk.2⟩⟩
  obtain ⟨c1, c2, c3, c4, c5⟩ := hc
  have ht : Tagged (convertedOf st.heap st.cache i).1 st.count U := by
    obtain ⟨tag, h1, h2⟩ := v.tagged
    exact ⟨tag, fun o ho => ⟨(h1 o ho).1.trans_le c2, (h1 o ho).2.1, by rw [c3 o (h1 o ho).1]; exact (h1 o ho).2.2⟩, h2⟩
  obtain ⟨r1, r2, r3, r4, r5⟩ := renameAll_spec (convertedOf st.heap st.cache i).2 _ st.count U ht c1
  have hcount : (cloneStep st i).1.count = st.count + (h0.obj i).parts := by
    simp only [cloneStep]; rw [r2, c4]
  refine ⟨⟨?_, ?_, fun o ho => ?_, fun o ho => ?_, fun o ho => ?_, fun j l hj hj0 => ?_⟩, hcount⟩
  · rw [hcount, ← c4]; exact r3
  · simp only [cloneStep]; rw [r1]; exact v.next.trans c2
  · simp only [cloneStep]
    rw [(r4 o).1, (r4 o).2, c3 o (ho.trans_le v.next)]
    exact v.same o ho
  · have := (r5 o).1
    rw [c3 o (ho.trans_le v.next)] at this
    exact eqOrExtends_trans (v.user o ho) this
  · by_cases hol : o ∈ (convertedOf st.heap st.cache i).2
    · obtain ⟨k, hk, hk'⟩ := c5 o hol
      exact ⟨k, hk, hk'.elim (fun e => e ▸ (r5 o).2 hol) (fun e => e.trans (.inr ((r5 o).2 hol)))⟩
    · obtain hU : U o := ho.resolve_right hol
      obtain ⟨k, hk, hk'⟩ := v.base o hU
      refine ⟨k, hk, hk'.trans ?_⟩
      have := (r5 o).1
      obtain ⟨tag, h3, -⟩ := v.tagged
      rw [c3 o (h3 o hU).1] at this
      exact this
  · simp only [cloneStep] at hj ⊢
    by_cases hji : j = i
    · subst hji
      rw [Function.update_self] at hj
      cases hj
      exact ⟨fun o ho => .inr ho, c4⟩
    · rw [Function.update_of_ne hji] at hj
      obtain ⟨h1, h2⟩ := v.cache j l hj hj0
      exact ⟨fun o ho => .inl (h1 o ho), h2⟩

/-- How much `count` grows over a chain. -/
noncomputable def NChain.numbers (h : Heap V) (inner : NChain → ℕ) : NChain → ℕ
  | .nil => 0
  | .layer i rest => (h.obj i).parts + rest.numbers h inner
  | .model sub rest => inner sub + rest.numbers h inner

/-- `count` is moved past the numbers used by each nested model. -/
def NChain.Covered (h : Heap V) (inner : NChain → ℕ) : NChain → Prop
  | .nil => True
  | .layer _ rest => rest.Covered h inner
  | .model sub rest => sub.Covered h inner ∧ sub.numbers h inner ≤ inner sub ∧ rest.Covered h inner

theorem cloneNested_inv (inner : NChain → ℕ) (h0 : Heap V) (L : List ℕ) (chain : NChain) : ∀ (st : CloneState V) (U : ℕ → Prop),
    LoopInv h0 L st U → (∀ i ∈ chain.layers, i < h0.next ∧ i ∈ L) → chain.Covered h0 inner →
    LoopInv h0 L (cloneNested inner chain st).1 (fun o => U o ∨ o ∈ (cloneNested inner chain st).2) ∧
    (cloneNested inner chain st).1.count = st.count + chain.numbers h0 inner := by
  induction chain with
  | nil => intro st U v _ _; exact ⟨by simpa [cloneNested] using v, rfl⟩
  | layer i rest ih =>
    intro st U v hl hc
    obtain ⟨v1, n1⟩ := cloneStep_inv v i (hl i (by simp [NChain.layers])).1 (hl i (by simp [NChain.layers])).2
    obtain ⟨v2, n2⟩ := ih _ _ v1 (fun j hj => hl j (by simp [NChain.layers, hj])) hc
    refine ⟨?_, by simp only [cloneNested]; rw [n2, n1, NChain.numbers]; omega⟩
    simp only [cloneNested, List.mem_append]
    simpa only [or_assoc] using v2
  | model sub rest ihs ihr =>
    intro st U v hl hc
    obtain ⟨v1, n1⟩ := ihs st U v (fun j hj => hl j (by simp [NChain.layers, hj])) hc.1
    have v1' : LoopInv h0 L ⟨(cloneNested inner sub st).1.heap, st.count + inner sub, (cloneNested inner sub st).1.cache⟩
        (fun o => U o ∨ o ∈ (cloneNested inner sub st).2) :=
      ⟨v1.tagged.mono (by rw [n1]; exact Nat.add_le_add_left hc.2.1 _), v1.next, v1.same, v1.user, v1.base, v1.cache⟩
    obtain ⟨v2, n2⟩ := ihr _ _ v1' (fun j hj => hl j (by simp [NChain.layers, hj])) hc.2.2
    refine ⟨?_, by simp only [cloneNested]; rw [n2, NChain.numbers]; dsimp only; omega⟩
    simp only [cloneNested, List.mem_append]
    simpa only [or_assoc] using v2

theorem names_nodup (own : ℕ) (inputNames : List String) (hin : inputNames.Nodup) (h : Heap V)
    (chain : NChain) (hnum : ∀ s ∈ inputNames, (∃ c, Numbered c s) → ∀ i ∈ chain.layers, ¬ Extends (h.obj i).name s) (hl : ∀ i ∈ chain.layers, i < h.next) (hc : chain.Covered h (innerLayers own)) :
    ∃ q, preprocessModel own inputNames h chain = .ok q ∧ q = preprocessNested (innerLayers own) h chain := by
  have v0 : LoopInv h chain.layers ⟨h, 0, fun _ => none⟩ (fun _ => False) :=
    ⟨⟨fun _ => 0, by simp, by simp⟩, le_rfl, fun o _ => ⟨rfl, rfl⟩, fun o _ => .inl rfl, by simp, by simp⟩
  obtain ⟨v, -⟩ := cloneNested_inv (innerLayers own) h chain.layers chain _ _ v0 (fun i hi => ⟨hl i hi, hi⟩) hc
  obtain ⟨tag, h1, h2⟩ := v.tagged
  have hnd : (inputNames ++ (preprocessNested (innerLayers own) h chain).2.dedup.map fun i =>
      ((preprocessNested (innerLayers own) h chain).1.obj i).name).Nodup := by
    refine List.nodup_append.mpr ⟨hin, ?_, ?_⟩
    · refine List.Nodup.map_on (fun a ha b hb e => ?_) (List.nodup_dedup _)
      rw [List.mem_dedup] at ha hb
      have ta := (h1 a (.inr ha)).2.2
      have tb := (h1 b (.inr hb)).2.2
      exact h2 a b (.inr ha) (.inr hb) (numbered_inj ta (e ▸ tb))
    · intro s hs t ht e
      subst e
      obtain ⟨o, ho, rfl⟩ := List.mem_map.mp ht
      rw [List.mem_dedup] at ho
      obtain ⟨k, hk, hk'⟩ := v.base o (.inr ho)
      exact hnum _ hs ⟨_, (h1 o (.inr ho)).2.2⟩ k hk hk'
  exact ⟨_, by simp [preprocessModel, kerasModelNames, hnd, Except.map], rfl⟩

theorem numbers_le (h : Heap V) (own : ℕ) (chain : NChain) :
    chain.numbers h (innerLayers own) + own = innerLayers own chain + chain.fused h := by
  induction chain with
  | nil => simp [NChain.numbers, innerLayers, NChain.fused]
  | layer i rest ih =>
    simp only [NChain.numbers, innerLayers, NChain.fused, LayerObj.parts]
    split_ifs <;> omega
  | model sub rest _ ih => simp only [NChain.numbers, innerLayers, NChain.fused]; omega

theorem covered_of_fewFused (h : Heap V) (own : ℕ) (chain : NChain) (hf : chain.FewFused h own) : chain.Covered h (innerLayers own) := by
  induction chain with
  | nil => trivial
  | layer i rest ih => exact ih hf
  | model sub rest ihs ihr =>
    refine ⟨ihs hf.2.1, ?_, ihr hf.2.2⟩
    have := numbers_le h own sub
    have := hf.1
    omega

end Loop

/-! ### C117 -/

section C117
variable {V : Type*}

/-- C117, restricted: `preprocess_keras_model` does not raise over the names of the layers, whatever they are, shared layers and nested models
included, provided that the input layers have distinct names, that those which end with a number do not begin with the name of a layer, and that each
nested model has at most one layer with a fused activation (none for `Sequential` models).  Missing: the other inputs and nested models, for
which it can be false (`C117_nested_refuted`, `C117_sequential_refuted`, `C117_input_refuted`). -/
theorem C117_names_partial (own : ℕ) (inputNames : List String) (hin : inputNames.Nodup) (h : Heap V) (chain : NChain)
    (hnum : ∀ s ∈ inputNames, (∃ c, Numbered c s) → ∀ i ∈ chain.layers, ¬ Extends (h.obj i).name s) (hl : ∀ i ∈ chain.layers, i < h.next) (hf : chain.FewFused h own) :
    ∃ q, preprocessModel own inputNames h chain = .ok q := by
  obtain ⟨q, e, -⟩ := names_nodup own inputNames hin h chain hnum hl (covered_of_fewFused h own chain hf)
  exact ⟨q, e⟩

/-- The chain of a model without nested models. -/
def NChain.ofList : List ℕ → NChain
  | [] => .nil
  | i :: l => .layer i (NChain.ofList l)

/-- C117 for models without nested models: any layers, any names, any sharing. -/
theorem C117_flat_partial (own : ℕ) (inputNames : List String) (hin : inputNames.Nodup) (h : Heap V) (l : List ℕ)
    (hnum : ∀ s ∈ inputNames, (∃ c, Numbered c s) → ∀ i ∈ l, ¬ Extends (h.obj i).name s) (hl : ∀ i ∈ l, i < h.next) :
    ∃ q, preprocessModel own inputNames h (.ofList l) = .ok q := by
  have e : (NChain.ofList l).layers = l := by
    clear hl hnum
    induction l with
    | nil => rfl
    | cons j l ih => simp only [NChain.ofList, NChain.layers, ih]
  refine C117_names_partial own inputNames hin h _ (by rwa [e]) (by rwa [e]) ?_
  · clear hl hnum e
    induction l with
    | nil => trivial
    | cons j l ih => exact ih

/-- C117: the names may have been the same before: all that counts is the position of the layers.  The model is converted twice here, as when
`clone` is called again on the model: the names have grown in between. -/
theorem C117_again_partial (own : ℕ) (inputNames : List String) (hin : inputNames.Nodup) (h : Heap V) (chain : NChain)
    (hnum : ∀ s ∈ inputNames, (∃ c, Numbered c s) → ∀ i ∈ chain.layers, ¬ Extends (h.obj i).name s) (hl : ∀ i ∈ chain.layers, i < h.next) (hf : chain.FewFused h own) :
    ∃ q q', preprocessModel own inputNames h chain = .ok q ∧ preprocessModel own inputNames q.1 chain = .ok q' := by
  obtain ⟨q, e, rfl⟩ := names_nodup own inputNames hin h chain hnum hl (covered_of_fewFused h own chain hf)
  have v0 : LoopInv h chain.layers ⟨h, 0, fun _ => none⟩ (fun _ => False) :=
    ⟨⟨fun _ => 0, by simp, by simp⟩, le_rfl, fun o _ => ⟨rfl, rfl⟩, fun o _ => .inl rfl, by simp, by simp⟩
  obtain ⟨v, -⟩ := cloneNested_inv (innerLayers own) h chain.layers chain _ _ v0 (fun i hi => ⟨hl i hi, hi⟩) (covered_of_fewFused h own chain hf)
  have hp : ∀ i, i < h.next → (((preprocessNested (innerLayers own) h chain).1.obj i).Fused ↔ (h.obj i).Fused) := by
    intro i hi
    have := v.same i hi
    unfold LayerObj.Fused preprocessNested
    dsimp only
    rw [this.1, this.2]
  have hff : ∀ c : NChain, (∀ i ∈ c.layers, i < h.next) → c.fused (preprocessNested (innerLayers own) h chain).1 = c.fused h := by
    intro c
    induction c with
    | nil => intro _; rfl
    | layer i rest ih =>
      intro hc
      simp only [NChain.fused]
      rw [ih (fun j hj => hc j (by simp [NChain.layers, hj]))]
      have e := hp i (hc i (by simp [NChain.layers]))
      by_cases hx : (h.obj i).Fused
      · rw [if_pos hx, if_pos (e.mpr hx)]
      · rw [if_neg hx, if_neg (fun q => hx (e.mp q))]
    | model sub rest _ ih => intro hc; exact ih (fun j hj => hc j (by simp [NChain.layers, hj]))
  have hfew : ∀ c : NChain, (∀ i ∈ c.layers, i < h.next) → c.FewFused h own → c.FewFused (preprocessNested (innerLayers own) h chain).1 own := by
    intro c
    induction c with
    | nil => intro _ _; trivial
    | layer i rest ih => intro hc h; exact ih (fun j hj => hc j (by simp [NChain.layers, hj])) h
    | model sub rest ihs ihr =>
      intro hc h
      refine ⟨?_, ihs (fun j hj => hc j (by simp [NChain.layers, hj])) h.2.1, ihr (fun j hj => hc j (by simp [NChain.layers, hj])) h.2.2⟩
      rw [hff sub (fun j hj => hc j (by simp [NChain.layers, hj]))]
      exact h.1
  obtain ⟨q', e'⟩ := C117_names_partial own inputNames hin (preprocessNested (innerLayers own) h chain).1 chain
    (fun s hs hc i hi hx => hnum s hs hc i hi (Extends.trans' (v.user i (hl i hi)) hx))
    (fun i hi => (hl i hi).trans_le v.next) (hfew chain hl hf)
  exact ⟨_, q', e, e'⟩

/-- Layers with the given names and a fused relu. -/
def reluLayers (names : List String) : Heap ℤ :=
  ⟨names.length, fun i => ⟨names.getD i "", false, some "relu", id⟩⟩

/-- C117 is false for a functional model used as a layer: with three layers with a fused activation, the third of which has the name of the
next layer of the outer model, two layers of the new model are called `z_wo_activation_4` and Keras raises `ValueError`. -/
theorem C117_nested_refuted :
    preprocessModel 1 ["input"] (reluLayers ["x", "y", "z", "z"]) (.model (.layer 0 (.layer 1 (.layer 2 .nil))) (.layer 3 .nil)) = .error .valueError :=
  rfl

/-- C117 is false for a `Sequential` model used as a layer, with two layers. -/
theorem C117_sequential_refuted :
    preprocessModel 0 ["input"] (reluLayers ["x", "y", "y"]) (.model (.layer 0 (.layer 1 .nil)) (.layer 2 .nil)) = .error .valueError :=
  rfl

/-- C117 is false for an input named like a layer and its position: the layer `n` is renamed to `n_0`, the name of the input. -/
theorem C117_input_refuted :
    preprocessModel 1 ["n_0"] (⟨1, fun _ => ⟨"n", false, none, id⟩⟩ : Heap ℤ) (.layer 0 .nil) = .error .valueError :=
  rfl

/-- All names of the inputs and layers of these models were distinct, within the outer model and within the nested one. -/
example : (["input", "z"] : List String).Nodup ∧ (["x", "y", "z"] : List String).Nodup ∧ (["n_0", "n"] : List String).Nodup := by decide

/-- A case of C117: a layer `a` used twice and a nested functional model with a layer that is also called `a`. -/
example : (preprocessModel 1 ["input_layer_1"] (reluLayers ["a", "b", "a"]) (.layer 0 (.model (.layer 2 .nil) (.layer 0 (.layer 1 .nil))))).map
    (fun q => q.2.map fun i => (q.1.obj i).name) =
    .ok ["a_wo_activation_0_4", "a_activation_1_5", "a_wo_activation_2", "a_activation_3", "a_wo_activation_0_4", "a_activation_1_5",
      "b_wo_activation_6", "b_activation_7"] := by
  decide +kernel

/-- It meets the hypotheses. -/
example : (NChain.layer 0 (.model (.layer 2 .nil) (.layer 0 (.layer 1 .nil)))).FewFused (reluLayers ["a", "b", "a"]) 1 ∧
    (["input_layer_1"] : List String).Nodup ∧ ∀ s ∈ (["input_layer_1"] : List String), (∃ c, Numbered c s) →
      ∀ i ∈ (NChain.layer 0 (.model (.layer 2 .nil) (.layer 0 (.layer 1 .nil)))).layers,
        ¬ Extends ((reluLayers ["a", "b", "a"]).obj i).name s := by
  refine ⟨⟨?_, trivial, trivial⟩, by simp, ?_⟩
  · simp only [NChain.fused]; split_ifs <;> simp
  · rintro s hs - i hi ⟨t, e⟩
    rw [List.mem_singleton.mp hs] at e
    have := congrArg (fun t => t.toList.head?) e
    simp only [NChain.layers, List.cons_append, List.nil_append, List.mem_cons, List.not_mem_nil, or_false] at hi
    rcases hi with rfl | rfl | rfl | rfl <;> simp [reluLayers] at this

end C117

end Decomon
