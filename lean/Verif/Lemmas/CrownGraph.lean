import Verif.SpecCrownGraph
import Verif.Lemmas.Pipeline
import Verif.Props.BackAct

/-! Lemmas about the backward conversion of a graph. -/

namespace Decomon

section Traversal
variable {τ : Type*} (parents : ℕ → List ℕ) (back : ℕ → List τ → Except PyErr (List τ)) (merge fuse setMode : List τ → Except PyErr (List τ))

/-- The computation of `crown_` from a node, without dictionaries: `I` are the inputs of the nodes, `N` the bounds of their layers. -/
inductive Walked (I N : ℕ → List τ) : ℕ → List τ → List τ → Prop
  | root {v : ℕ} {bb b r : List τ} (hp : parents v = []) (hb : crownJoin merge (N v) bb = .ok b)
      (hr : fuse (I v ++ b) = .ok r) : Walked I N v bb r
  | step {v p : ℕ} {bb b r : List τ} (hp : parents v = [p]) (hb : crownJoin merge (N v) bb = .ok b)
      (hr : Walked I N p b r) : Walked I N v bb r

variable {parents back merge fuse setMode} {I N : ℕ → List τ}

theorem crownGo_ok (A : ℕ → Prop) (hA : ∀ v, A v → ∀ p ∈ parents v, A p) (ρ : ℕ → ℕ) (hρ : ∀ v, A v → ∀ p ∈ parents v, ρ p < ρ v)
    (hN : ∀ v, A v → back v (I v) = .ok (N v)) (im : ℕ → Option (List τ)) (him : ∀ v, A v → im v = some (I v)) {v : ℕ} {bb r : List τ}
    (hw : Walked parents merge fuse I N v bb r) : A v → ∀ fuel cm, ρ v < fuel → (∀ w b, cm w = some b → b = N w) →
    ∃ cm', crownGo parents back merge fuse im fuel v bb cm = .ok (r, cm') ∧ ∀ w b, cm' w = some b → b = N w := by
  have memo : ∀ v, A v → ∀ cm : ℕ → Option (List τ), (∀ w b, cm w = some b → b = N w) →
      ∃ cm', crownMemo back v (I v) cm = .ok (N v, cm') ∧ ∀ w b, cm' w = some b → b = N w := by
    intro v hv cm hc
    cases e : cm v with
    | some b => exact ⟨cm, by rw [crownMemo, e, hc v b e], hc⟩
    | none =>
      refine ⟨Function.update cm v (some (N v)), by rw [crownMemo, e, hN v hv]; rfl, fun w b h => ?_⟩
      by_cases hwv : w = v
      · subst hwv; simpa using h.symm
      · rw [Function.update_of_ne hwv] at h; exact hc w b h
  induction hw with
  | @root v bb b r hp hb hr =>
    intro hv fuel cm hf hc
    obtain ⟨fuel, rfl⟩ := Nat.exists_eq_succ_of_ne_zero (Nat.ne_of_gt (Nat.lt_of_le_of_lt (Nat.zero_le _) hf))
    obtain ⟨cm', e, hc'⟩ := memo v hv cm hc
    refine ⟨cm', ?_, hc'⟩
    simp only [crownGo, him v hv, e, Except.bind, hb, hp, hr, Except.map]
  | @step v p bb b r hp hb hr ih =>
    intro hv fuel cm hf hc
    obtain ⟨fuel, rfl⟩ := Nat.exists_eq_succ_of_ne_zero (Nat.ne_of_gt (Nat.lt_of_le_of_lt (Nat.zero_le _) hf))
    obtain ⟨cm', e, hc'⟩ := memo v hv cm hc
    have hmem : p ∈ parents v := by simp [hp]
    obtain ⟨cm'', e', hc''⟩ := ih (hA v hv p hmem) fuel cm' (by have := hρ v hv p hmem; omega) hc'
    refine ⟨cm'', ?_, hc''⟩
    simp only [crownGo, him v hv, e, Except.bind, hb, hp]
    exact e'

variable {inp : List τ} {fm : ℕ → Option (List τ)}

theorem crownInputs_ok (visit : List ℕ) (ht : Topological parents visit) (ρ : ℕ → ℕ) (hρ : ∀ v ∈ visit, ∀ p ∈ parents v, ρ p < ρ v)
    (fuel : ℕ) (hf : ∀ v ∈ visit, ρ v < fuel) (hN : ∀ v ∈ visit, back v (I v) = .ok (N v))
    (h0 : ∀ v ∈ visit, parents v = [] ∨ ∃ p, parents v = [p])
    (hI0 : ∀ v ∈ visit, parents v = [] → I v = inp)
    (hI1 : ∀ v ∈ visit, ∀ p, parents v = [p] → fm p = some (I v) ∨
      (fm p = none ∧ ∃ r, Walked parents merge fuse I N p [] r ∧ setMode (inp ++ r) = .ok (I v))) :
    ∀ (l2 l1 : List ℕ) (st : (ℕ → Option (List τ)) × (ℕ → Option (List τ))), visit = l1 ++ l2 → (∀ v ∈ l1, st.1 v = some (I v)) →
      (∀ w b, st.2 w = some b → b = N w) →
    ∃ st', crownInputs parents back merge fuse setMode inp fm fuel l2 st = .ok st' ∧ (∀ v ∈ visit, st'.1 v = some (I v)) ∧
      ∀ w b, st'.2 w = some b → b = N w
  | [], l1, st, ho, h, hc => ⟨st, rfl, by simpa [ho] using h, hc⟩
  | v :: t, l1, st, ho, h, hc => by
    have hmem : v ∈ visit := by rw [ho]; simp
    have hsub : ∀ w ∈ l1, w ∈ visit := fun w hw => by rw [ho]; simp [hw]
    have hclosed : ∀ w, w ∈ l1 → ∀ p ∈ parents w, p ∈ l1 := by
      intro w hw p hp
      obtain ⟨a, c, e⟩ := List.append_of_mem hw
      have := ht.2 a w (c ++ v :: t) (by rw [ho, e]; simp) p hp
      rw [e]; simp [this]
    have hnext : ∀ cm', (∀ w b, cm' w = some b → b = N w) →
        ∃ st', crownInputs parents back merge fuse setMode inp fm fuel t (Function.update st.1 v (some (I v)), cm') = .ok st' ∧
          (∀ v ∈ visit, st'.1 v = some (I v)) ∧ ∀ w b, st'.2 w = some b → b = N w := fun cm' hc' =>
      crownInputs_ok visit ht ρ hρ fuel hf hN h0 hI0 hI1 t (l1 ++ [v]) (Function.update st.1 v (some (I v)), cm') (by simp [ho]) (fun w hw => by
        by_cases hwv : w = v
        · subst hwv; simp
        · simp only [Function.update_of_ne hwv]
          exact h w (by simpa [hwv] using hw)) hc'
    rcases h0 v hmem with hps | ⟨p, hps⟩
    · obtain ⟨st', e, r⟩ := hnext st.2 hc
      refine ⟨st', ?_, r⟩
      simp only [crownInputs, hps, Except.bind]
      rw [hI0 v hmem hps] at e
      exact e
    · have hp1 : p ∈ l1 := ht.2 l1 v t ho p (by simp [hps])
      rcases hI1 v hmem p hps with hfm | ⟨hfm, r, hw, hset⟩
      · obtain ⟨st', e, r⟩ := hnext st.2 hc
        refine ⟨st', ?_, r⟩
        simp only [crownInputs, hps, crownGather, hfm, Except.map, Except.bind, List.append_nil]
        exact e
      · obtain ⟨cm', e1, hc'⟩ := crownGo_ok (back := back) (fun w => w ∈ l1) hclosed ρ (fun w hw => hρ w (hsub w hw)) (fun w hw => hN w (hsub w hw))
          st.1 h hw hp1 fuel st.2 (hf p (hsub p hp1)) hc
        obtain ⟨st', e, r⟩ := hnext cm' hc'
        refine ⟨st', ?_, r⟩
        simp only [crownInputs, hps, crownGather, hfm, e1, Except.map, Except.bind, hset, List.append_nil]
        exact e

theorem crownOutputs_ok (visit : List ℕ) (ht : Topological parents visit) (ρ : ℕ → ℕ) (hρ : ∀ v ∈ visit, ∀ p ∈ parents v, ρ p < ρ v)
    (fuel : ℕ) (hf : ∀ v ∈ visit, ρ v < fuel) (hN : ∀ v ∈ visit, back v (I v) = .ok (N v)) (im : ℕ → Option (List τ))
    (him : ∀ v ∈ visit, im v = some (I v)) (bounds : List τ) (S : ℕ → List τ) :
    ∀ (outs : List ℕ) (cm : ℕ → Option (List τ)), (∀ o ∈ outs, o ∈ visit ∧ ∃ r, Walked parents merge fuse I N o bounds r ∧
      setMode (inp ++ r) = .ok (S o)) → (∀ w b, cm w = some b → b = N w) →
    crownOutputs parents back merge fuse setMode inp im fuel bounds outs cm = .ok (outs.flatMap S)
  | [], cm, _, _ => rfl
  | o :: t, cm, ho, hc => by
    obtain ⟨hmem, r, hw, hset⟩ := ho o (by simp)
    obtain ⟨cm', e, hc'⟩ := crownGo_ok (back := back) (fun w => w ∈ visit) (fun v hv p hp => topological_parent_mem parents ht hv hp) ρ hρ hN im him hw hmem
      fuel cm (hf o hmem) hc
    simp only [crownOutputs, e, Except.bind, hset, crownOutputs_ok visit ht ρ hρ fuel hf hN im him bounds S t cm'
      (fun q hq => ho q (by simp [hq])) hc', Except.map, List.flatMap_cons]

/-- The nodes from which the outputs are taken. -/
theorem outputs_selected (M : ℕ) (d : ℕ → Option ℤ) (order : List ℕ) (hn : order.Nodup) (nameOf : ℕ → String) (outs : List ℕ)
    (ho : ∀ o ∈ outs, o ∈ order) (hname : ∀ o ∈ outs, ∀ o' ∈ outs, nameOf o = nameOf o' → o = o')
    (hlong : ∀ o ∈ outs, LongestFromInput parents o M) (hreach : ∀ v ∈ order, ∃ o ∈ outs, ∃ k, Walk parents v o k)
    (hd : ∀ v ∈ order, ∃ n : ℕ, d v = some ((M : ℤ) - n) ∧ LongestFromInput parents v n) :
    ((outs.map nameOf).flatMap fun s => (nodesAt d order 0).filter fun v => decide (nameOf v = s)) = outs := by
  have hz : ∀ v, v ∈ nodesAt d order 0 ↔ v ∈ outs := by
    intro v
    simp only [nodesAt, List.mem_filter, decide_eq_true_eq]
    constructor
    · rintro ⟨hv, hv0⟩
      obtain ⟨n, e, ⟨⟨a, ha, hw⟩, -⟩⟩ := hd v hv
      obtain ⟨o, hoo, k, hk⟩ := hreach v hv
      rw [hv0] at e
      have e' := Option.some.inj e
      have := (hlong o hoo).2 a _ ha (hw.trans hk)
      have hk0 : k = 0 := by omega
      subst hk0
      cases hk
      exact hoo
    · intro hv
      refine ⟨ho v hv, ?_⟩
      obtain ⟨n, e, h⟩ := hd v (ho v hv)
      obtain ⟨⟨a, ha, hw⟩, hmax⟩ := hlong v hv
      obtain ⟨⟨a', ha', hw'⟩, hmax'⟩ := h
      have h1 := hmax a' _ ha' hw'
      have h2 := hmax' a _ ha hw
      rw [e]; congr 1; omega
  have hone : ∀ o ∈ outs, ((nodesAt d order 0).filter fun v => decide (nameOf v = nameOf o)) = [o] := by
    intro o hoo
    refine eq_singleton_of ((hn.filter _).filter _) fun v => ?_
    simp only [List.mem_filter, hz, decide_eq_true_eq]
    exact ⟨fun h => hname v h.1 o hoo h.2, by rintro rfl; exact ⟨hoo, rfl⟩⟩
  clear hlong hreach ho hname hz
  induction outs with
  | nil => rfl
  | cons o t ih =>
    simp only [List.map_cons, List.flatMap_cons]
    rw [hone o (by simp), ih fun q hq => hone q (by simp [hq])]
    rfl

/-- `crown_model`, when the calls of the backward layers succeed. -/
theorem crownModelE_ok (M fuel : ℕ) (order : List ℕ) (ht : Topological parents order) (hf : order.length ≤ fuel + 1) (nameOf : ℕ → String)
    (outs : List ℕ) (bounds : List τ) (hb : bounds = [] ∨ outs.length = 1) (ho : ∀ o ∈ outs, o ∈ order)
    (hname : ∀ o ∈ outs, ∀ o' ∈ outs, nameOf o = nameOf o' → o = o') (hlong : ∀ o ∈ outs, LongestFromInput parents o M)
    (hreach : ∀ v ∈ order, ∃ o ∈ outs, ∃ k, Walk parents v o k) (hN : ∀ v ∈ order, back v (I v) = .ok (N v))
    (h0 : ∀ v ∈ order, parents v = [] ∨ ∃ p, parents v = [p]) (hI0 : ∀ v ∈ order, parents v = [] → I v = inp)
    (hI1 : ∀ v ∈ order, ∀ p, parents v = [p] → fm p = some (I v) ∨
      (fm p = none ∧ ∃ r, Walked parents merge fuse I N p [] r ∧ setMode (inp ++ r) = .ok (I v)))
    (S : ℕ → List τ) (hS : ∀ o ∈ outs, ∃ r, Walked parents merge fuse I N o bounds r ∧ setMode (inp ++ r) = .ok (S o)) :
    crownModelE parents M (fuel + 1) order nameOf outs back merge fuse setMode inp fm bounds = .ok (outs.flatMap S) := by
  obtain ⟨d, e, hd, hg⟩ := depthDict_ok parents M fuel order ht
  have hdl := depth_longest parents M d ht hg
  have hvt := visitOrder_topological parents M d ht hd hg
  have hmem : ∀ v, v ∈ visitOrder d order ↔ v ∈ order := fun v => by rw [mem_visitOrder, hd]; tauto
  have hρ : ∀ v ∈ visitOrder d order, ∀ p ∈ parents v, order.idxOf p < order.idxOf v := by
    intro v hv p hp
    obtain ⟨a, c, e⟩ := List.append_of_mem ((hmem v).1 hv)
    have hpa := ht.2 a v c e p hp
    have hnd := ht.1
    rw [e] at hnd ⊢
    have hva : v ∉ a := fun h => (List.nodup_append.1 hnd).2.2 v h v (by simp) rfl
    rw [List.idxOf_append_of_mem hpa, List.idxOf_append_of_notMem hva]
    have := List.idxOf_lt_length_iff.2 hpa
    simpa using this
  have hfu : ∀ v ∈ visitOrder d order, order.idxOf v < fuel + 1 := fun v hv =>
    Nat.lt_of_lt_of_le (List.idxOf_lt_length_iff.2 ((hmem v).1 hv)) hf
  obtain ⟨st, e2, h1, h2⟩ := crownInputs_ok (back := back) (setMode := setMode) (inp := inp) (fm := fm) (visitOrder d order) hvt _ hρ (fuel + 1) hfu
    (fun v hv => hN v ((hmem v).1 hv)) (fun v hv => h0 v ((hmem v).1 hv)) (fun v hv => hI0 v ((hmem v).1 hv)) (fun v hv => hI1 v ((hmem v).1 hv))
    (visitOrder d order) [] (fun _ => none, fun _ => none) rfl (by simp) (by simp)
  have hb' : ¬ (¬ bounds.isEmpty = true ∧ 1 < outs.length) := by
    rcases hb with rfl | hb
    · simp
    · omega
  rw [crownModelE, if_neg hb', e]
  simp only [Except.bind, e2]
  rw [outputs_selected M d order ht.1 nameOf outs ho hname hlong hreach hdl]
  exact crownOutputs_ok (visitOrder d order) hvt _ hρ (fuel + 1) hfu (fun v hv => hN v ((hmem v).1 hv)) st.1 h1 bounds S outs st.2
    (fun o hoo => ⟨(hmem o).2 (ho o hoo), hS o hoo⟩) h2

end Traversal

/-! ### The tensors -/

section Tensors
variable {X : Type} {n : ℕ}

theorem toTen_toB (t : Ten X (Idx [n])) : BTen.toTen n t.toB = .ok t := by
  cases t <;> simp [Ten.toB, BTen.toTen]

theorem mapM_toB : ∀ l : List (Ten X (Idx [n])), (l.map Ten.toB).mapM (BTen.toTen n) = .ok l
  | [] => rfl
  | t :: l => by simp only [List.map_cons, List.mapM_cons, toTen_toB, mapM_toB l]; rfl

theorem readListB_toList (x0 : X) (m : Mode) {s : List ℕ} (f : Full X (Idx [n]) (Idx s) ℝ) :
    readListB n x0 m s ((f.toList m).map Ten.toB) = .ok (f.carried m x0) := by
  rw [readListB, mapM_toB]
  exact readList_toList x0 m f

theorem readBack_toB {a b : List ℕ} (B : Back (Idx a) (Idx b) ℝ) : readBack (B.toB : List (BTen X)) = .ok ⟨(a, b), B⟩ := by
  simp [readBack, Back.toB]

theorem mergeB_toB {a b c : List ℕ} (B1 : Back (Idx a) (Idx b) ℝ) (B2 : Back (Idx b) (Idx c) ℝ) :
    mergeB (B1.toB ++ B2.toB : List (BTen X)) = .ok (mergeWithPrevious B1 B2).toB := by
  have h1 : (B1.toB ++ B2.toB : List (BTen X)).take 4 = B1.toB := rfl
  have h2 : (B1.toB ++ B2.toB : List (BTen X)).drop 4 = B2.toB := rfl
  rw [mergeB, h1, h2, readBack_toB, readBack_toB]
  simp [Except.bind]

theorem drop_bounds {b c : List ℕ} (l : List (BTen X)) (B : Back (Idx b) (Idx c) ℝ) :
    (l ++ B.toB).drop ((l ++ B.toB).length - 4) = B.toB ∧ (l ++ B.toB).take ((l ++ B.toB).length - 4) = l := by
  have e : (l ++ B.toB).length - 4 = l.length := by simp [Back.toB]
  rw [e]
  simp

theorem fuseB_toB (m : Mode) (inp : Full X (Idx [n]) (Idx [n]) ℝ) {c : List ℕ} (B : Back (Idx [n]) (Idx c) ℝ) :
    fuseB m ((inp.toList m).map Ten.toB ++ B.toB) = .ok (fuse m inp B).toB := by
  obtain ⟨h1, h2⟩ := drop_bounds ((inp.toList m).map Ten.toB) B
  have e : mergeB (BTen.mat [n] [n] inp.wu :: BTen.vec [n] inp.bu :: BTen.mat [n] [n] inp.wl :: BTen.vec [n] inp.bl :: B.toB : List (BTen X)) =
      .ok (mergeWithPrevious (⟨inp.wu, inp.bu, inp.wl, inp.bl⟩ : Back (Idx [n]) (Idx [n]) ℝ) B).toB :=
    mergeB_toB (X := X) (⟨inp.wu, inp.bu, inp.wl, inp.bl⟩ : Back (Idx [n]) (Idx [n]) ℝ) B
  simp only [fuseB, h1, h2]
  cases m with
  | ibp => simp [fuse, getAffine]
  | affine => simpa [fuse, getAffine, Full.toList, Full.toNine, extractForMode, Ten.toB] using e
  | hybrid => simpa [fuse, getAffine, Full.toList, Full.toNine, extractForMode, Ten.toB] using e

theorem setModeB_toB (D : PertDomain X (Idx [n]) ℝ) (stack : (Idx [n] → ℝ) → (Idx [n] → ℝ) → X) (m : Mode)
    (inp : Full X (Idx [n]) (Idx [n]) ℝ) {c : List ℕ} (B : Back (Idx [n]) (Idx c) ℝ) :
    setModeB D stack inp.x m ((inp.toList m).map Ten.toB ++ B.toB) = .ok (((convert2BackwardMode D stack m inp B).toList m).map Ten.toB) := by
  obtain ⟨h1, h2⟩ := drop_bounds ((inp.toList m).map Ten.toB) B
  rw [setModeB, h1, h2, readBack_toB, readListB_toList]
  simp only [Except.bind, dif_pos]
  cases m <;> simp [convert2BackwardMode, Full.carried, Full.toList, Full.toNine, extractForMode, getIbp, getAffine]

theorem carried_convert2BackwardMode (D : PertDomain X (Idx [n]) ℝ) (stack : (Idx [n] → ℝ) → (Idx [n] → ℝ) → X) (m : Mode)
    (inp : Full X (Idx [n]) (Idx [n]) ℝ) {c : List ℕ} (B : Back (Idx [n]) (Idx c) ℝ) :
    (convert2BackwardMode D stack m inp B).carried m inp.x = convert2BackwardMode D stack m inp B := by
  cases m <;> simp [convert2BackwardMode, Full.carried, getIbp, getAffine]

end Tensors

/-! ### The nodes -/

section Nodes
variable {X : Type} {n : ℕ}

/-- A node without parents: the input layer. -/
def InputNode (D : PertDomain X (Idx [n]) ℝ) (m : Mode) (eps : ℝ) (slope : Slope) (inp : Full X (Idx [n]) (Idx [n]) ℝ) {as : List (List ℕ)} {b : List ℕ}
    (o : KOp n as b) (ws : HList (fun s => GNode n s × Except PyErr (Full X (Idx [n]) (Idx s) ℝ)) as) : Prop :=
  ∃ N : List (BTen X), (∀ t, o.back D m eps slope inp.x t = .ok N) ∧
    (∃ R, (o.node D m eps slope inp ws).first = .ok R ∧ fuseB m ((inp.toList m).map Ten.toB ++ N) = .ok R.toB) ∧
    ∀ c (B : Back (Idx b) (Idx c) ℝ), ∃ R b', (o.node D m eps slope inp ws).next c B = .ok R ∧ mergeB (N ++ B.toB) = .ok b' ∧
      fuseB m ((inp.toList m).map Ten.toB ++ b') = .ok R.toB

/-- A node with one parent. -/
def LayerNode (D : PertDomain X (Idx [n]) ℝ) (m : Mode) (eps : ℝ) (slope : Slope) (inp : Full X (Idx [n]) (Idx [n]) ℝ) {as : List (List ℕ)}
    {b : List ℕ} (o : KOp n as b) (ws : HList (fun s => GNode n s × Except PyErr (Full X (Idx [n]) (Idx s) ℝ)) as) {a : List ℕ}
    (w : GNode n a × Except PyErr (Full X (Idx [n]) (Idx a) ℝ)) : Prop :=
  ∀ f, w.2 = .ok f → f.carried m inp.x = f → ∃ B0 : Back (Idx a) (Idx b) ℝ, o.back D m eps slope inp.x ((f.toList m).map Ten.toB) = .ok B0.toB ∧
    (o.node D m eps slope inp ws).first = w.1.next b B0 ∧
    ∀ c (B : Back (Idx b) (Idx c) ℝ), (o.node D m eps slope inp ws).next c B = w.1.next c (mergeWithPrevious B0 B)

theorem KOp.node_cases (D : PertDomain X (Idx [n]) ℝ) (m : Mode) (eps : ℝ) (slope : Slope) (inp : Full X (Idx [n]) (Idx [n]) ℝ)
    {as : List (List ℕ)} {b : List ℕ} (o : KOp n as b) (ho : o.HasBack)
    (ws : HList (fun s => GNode n s × Except PyErr (Full X (Idx [n]) (Idx s) ℝ)) as) :
    (as = [] ∧ InputNode D m eps slope inp o ws) ∨
    ∃ a w, as = [a] ∧ HEq ws (HList.cons w .nil : HList (fun s => GNode n s × Except PyErr (Full X (Idx [n]) (Idx s) ℝ)) [a]) ∧
      LayerNode D m eps slope inp o ws w := by
  cases o with
  | input =>
    refine .inl ⟨rfl, _, fun _ => rfl, ⟨_, rfl, fuseB_toB m inp _⟩, fun c B => ⟨_, _, rfl, mergeB_toB _ _, fuseB_toB m inp _⟩⟩
  | @layer a b l =>
    cases ws with
    | cons w t =>
      cases t with
      | nil =>
        refine .inr ⟨a, w, rfl, HEq.rfl, fun f hf hc => ?_⟩
        cases l with
        | lay l =>
          refine ⟨l.backward D m eps slope f, ?_, ?_, fun c B => ?_⟩
          · simp only [KOp.back, readListB_toList, hc, Except.bind, Step.back, Except.map]
          · simp only [KOp.node, hf, Except.bind, Step.back]
          · simp only [KOp.node, hf, Except.bind, Step.back]
        | act g =>
          obtain ⟨g1, g2, _, _, hcall⟩ := call_sShape (ι := Idx [n]) (κ := Idx b) D m eps slope none g ho.1
          refine ⟨backwardSShape D m eps g1 g2 f, ?_, ?_, fun c B => ?_⟩
          · simp only [KOp.back, readListB_toList, hc, Except.bind, Step.back, Except.map, hcall]
          · simp only [KOp.node, hf, Except.bind, Step.back, hcall]
          · simp only [KOp.node, hf, Except.bind, Step.back, hcall]
        | pool win hw => exact ho.elim
  | merge op a r => exact ho.elim
  | subtract a => exact ho.elim
  | concat as j0 b e => exact ho.elim
  | dot e0 e1 e => exact ho.elim

/-- The same for a node of a graph. -/
theorem KOp.node_cases_of (D : PertDomain X (Idx [n]) ℝ) (m : Mode) (eps : ℝ) (slope : Slope) (inp : Full X (Idx [n]) (Idx [n]) ℝ)
    {sh : ℕ → List ℕ} (ps : List ℕ) {b : List ℕ} (o : KOp n (ps.map sh) b) (ho : o.HasBack)
    (w : (v : ℕ) → GNode n (sh v) × Except PyErr (Full X (Idx [n]) (Idx (sh v)) ℝ)) :
    (ps = [] ∧ InputNode D m eps slope inp o (HList.ofNodes w ps)) ∨
    ∃ p, ps = [p] ∧ LayerNode D m eps slope inp o (HList.ofNodes w ps) (w p) := by
  rcases o.node_cases D m eps slope inp ho (HList.ofNodes w ps) with ⟨h, hi⟩ | ⟨a, u, h, hh, hl⟩
  · exact .inl ⟨List.map_eq_nil_iff.1 h, hi⟩
  · obtain ⟨p, rfl, rfl⟩ := List.map_eq_singleton_iff.1 h
    refine .inr ⟨p, rfl, ?_⟩
    have := eq_of_heq hh
    simp only [HList.ofNodes] at this
    injection this with _ _ h1 _
    rw [h1]
    exact hl

/-- The backward pass from every node succeeds. -/
theorem crown_total (D : PertDomain X (Idx [n]) ℝ) (stack : (Idx [n] → ℝ) → (Idx [n] → ℝ) → X) (m : Mode) (eps : ℝ) (slope : Slope)
    (inp : Full X (Idx [n]) (Idx [n]) ℝ) (G : KGraph n) (order : List ℕ) (ht : Topological G.parents order)
    (fw : (v : ℕ) → Option (Full X (Idx [n]) (Idx (G.sh v)) ℝ)) (hfw : ∀ v ∈ order, ∀ f, fw v = some f → f.carried m inp.x = f)
    (w : (v : ℕ) → GNode n (G.sh v)) (hw : G.IsCrown D stack m eps slope inp order fw w) (hb : ∀ v ∈ order, (G.op v).HasBack) :
    ∀ v ∈ order, (∃ R, (w v).first = .ok R) ∧ (∀ c B, ∃ R, (w v).next c B = .ok R) ∧
      ∃ f, crownOut D stack m inp (fw v) (w v) = .ok f ∧ f.carried m inp.x = f := by
  refine topological_induction G.parents ht _ fun v hv ih => ?_
  have key : (∃ R, (w v).first = .ok R) ∧ ∀ c B, ∃ R, (w v).next c B = .ok R := by
    rw [hw v hv]
    rcases KOp.node_cases_of D m eps slope inp (G.parents v) (G.op v) (hb v hv) (fun u => (w u, crownOut D stack m inp (fw u) (w u))) with
      ⟨-, N, -, ⟨R, h1, -⟩, h2⟩ | ⟨p, hp, hl⟩
    · exact ⟨⟨R, h1⟩, fun c B => by obtain ⟨R, _, h, -⟩ := h2 c B; exact ⟨R, h⟩⟩
    · obtain ⟨-, hn, f, hf, hc⟩ := ih p (by simp [hp])
      obtain ⟨B0, -, h1, h2⟩ := hl f hf hc
      exact ⟨by rw [h1]; exact hn _ _, fun c B => by rw [h2]; exact hn _ _⟩
  refine ⟨key.1, key.2, ?_⟩
  cases e : fw v with
  | some f => exact ⟨f, rfl, hfw v hv f e⟩
  | none =>
    obtain ⟨R, hR⟩ := key.1
    exact ⟨_, by rw [crownOut, hR]; rfl, carried_convert2BackwardMode D stack m inp R⟩

/-- The inputs of the nodes and the bounds of their layers, and the walks of `crown_` over them. -/
theorem crown_walked (D : PertDomain X (Idx [n]) ℝ) (stack : (Idx [n] → ℝ) → (Idx [n] → ℝ) → X) (m : Mode) (eps : ℝ) (slope : Slope)
    (inp : Full X (Idx [n]) (Idx [n]) ℝ) (G : KGraph n) (order : List ℕ) (ht : Topological G.parents order)
    (fw : (v : ℕ) → Option (Full X (Idx [n]) (Idx (G.sh v)) ℝ)) (hfw : ∀ v ∈ order, ∀ f, fw v = some f → f.carried m inp.x = f)
    (w : (v : ℕ) → GNode n (G.sh v)) (hw : G.IsCrown D stack m eps slope inp order fw w) (hb : ∀ v ∈ order, (G.op v).HasBack) :
    ∃ I N : ℕ → List (BTen X), (∀ v ∈ order, (G.op v).back D m eps slope inp.x (I v) = .ok (N v)) ∧
      (∀ v ∈ order, G.parents v = [] ∨ ∃ p, G.parents v = [p]) ∧
      (∀ v ∈ order, G.parents v = [] → I v = (inp.toList m).map Ten.toB) ∧
      (∀ v ∈ order, ∀ p, G.parents v = [p] → ∃ f, crownOut D stack m inp (fw p) (w p) = .ok f ∧ I v = (f.toList m).map Ten.toB) ∧
      ∀ v ∈ order, (∀ R, (w v).first = .ok R → Walked G.parents mergeB (fuseB m) I N v [] R.toB) ∧
        ∀ c B R, (w v).next c B = .ok R → Walked G.parents mergeB (fuseB m) I N v B.toB R.toB := by
  classical
  have htot := crown_total D stack m eps slope inp G order ht fw hfw w hw hb
  let I : ℕ → List (BTen X) := fun v => match G.parents v with
    | [] => (inp.toList m).map Ten.toB
    | p :: _ => match crownOut D stack m inp (fw p) (w p) with
      | .ok f => (f.toList m).map Ten.toB
      | .error _ => []
  let N : ℕ → List (BTen X) := fun v => match (G.op v).back D m eps slope inp.x (I v) with
    | .ok l => l
    | .error _ => []
  have hI0 : ∀ v, G.parents v = [] → I v = (inp.toList m).map Ten.toB := fun v h => by simp only [I, h]
  have hI1 : ∀ v p, G.parents v = [p] → ∀ f, crownOut D stack m inp (fw p) (w p) = .ok f → I v = (f.toList m).map Ten.toB :=
    fun v p h f hf => by simp only [I, h, hf]
  have hNe : ∀ v l, (G.op v).back D m eps slope inp.x (I v) = .ok l → N v = l := fun v l h => by simp only [N, h]
  have hj : ∀ l : List (BTen X), crownJoin mergeB l [] = .ok l := fun _ => rfl
  have hj' : ∀ (l : List (BTen X)) {b c : List ℕ} (B : Back (Idx b) (Idx c) ℝ), crownJoin mergeB l B.toB = mergeB (l ++ B.toB) := fun _ _ _ _ => rfl
  have hcase := fun v hv => KOp.node_cases_of D m eps slope inp (G.parents v) (G.op v) (hb v hv) (fun u => (w u, crownOut D stack m inp (fw u) (w u)))
  refine ⟨I, N, fun v hv => ?_, fun v hv => ?_, fun v _ h => hI0 v h, fun v hv p hp => ?_, ?_⟩
  · rcases hcase v hv with ⟨hp, N', h, -⟩ | ⟨p, hp, hl⟩
    · rw [hNe v N' (h _)]; exact h _
    · obtain ⟨-, -, f, hf, hc⟩ := htot p (topological_parent_mem G.parents ht hv (by simp [hp]))
      obtain ⟨B0, h1, -⟩ := hl f hf hc
      rw [← hI1 v p hp f hf] at h1
      rw [hNe v _ h1]; exact h1
  · rcases hcase v hv with ⟨hp, -⟩ | ⟨p, hp, -⟩
    · exact .inl hp
    · exact .inr ⟨p, hp⟩
  · obtain ⟨-, -, f, hf, hc⟩ := htot p (topological_parent_mem G.parents ht hv (by simp [hp]))
    exact ⟨f, hf, hI1 v p hp f hf⟩
  · refine topological_induction G.parents ht _ fun v hv ih => ?_
    rcases hcase v hv with ⟨hp, N', h, ⟨R, h1, h2⟩, h3⟩ | ⟨p, hp, hl⟩
    · rw [← hw v hv] at h1 h3
      have hN := hNe v N' (h _)
      constructor
      · intro R' hR'
        rw [h1] at hR'
        obtain rfl := Except.ok.inj hR'
        exact .root hp (hj _) (by rw [hI0 v hp, hN]; exact h2)
      · intro c B R' hR'
        obtain ⟨R, b', e1, e2, e3⟩ := h3 c B
        rw [e1] at hR'
        obtain rfl := Except.ok.inj hR'
        exact .root hp (by rw [hj', hN]; exact e2) (by rw [hI0 v hp]; exact e3)
    · obtain ⟨-, -, f, hf, hc⟩ := htot p (topological_parent_mem G.parents ht hv (by simp [hp]))
      obtain ⟨B0, h1, h2, h3⟩ := hl f hf hc
      rw [← hw v hv] at h2 h3
      rw [← hI1 v p hp f hf] at h1
      have hN := hNe v _ h1
      have ihp := (ih p (by simp [hp])).2
      constructor
      · intro R hR
        rw [h2] at hR
        exact .step hp (by rw [hj, hN]) (ihp _ _ _ hR)
      · intro c B R hR
        rw [h3] at hR
        exact .step hp (by rw [hj', hN]; exact mergeB_toB _ _) (ihp _ _ _ hR)

/-- The bounds given by a forward pass. -/
theorem forwardMap_ok (D : PertDomain X (Idx [n]) ℝ) (m : Mode) (eps : ℝ) (slope : Slope) (inp : Full X (Idx [n]) (Idx [n]) ℝ) (G : KGraph n)
    (M fuel : ℕ) (order : List ℕ) (ht : Topological G.parents order) (f : (v : ℕ) → Full X (Idx [n]) (Idx (G.sh v)) ℝ)
    (hf : G.IsBounds D m eps slope inp order f) : ∃ fm, G.forwardMap D m eps slope inp M (fuel + 1) order = .ok fm ∧
      ∀ v ∈ order, fm v = some (((f v).toList m).map Ten.toB) := by
  obtain ⟨d, e, hd, hg⟩ := depthDict_ok G.parents M fuel order ht
  have hdl := depth_longest G.parents M d ht hg
  have hvt := visitOrder_topological G.parents M d ht hd hg
  have hmem : ∀ v, v ∈ visitOrder d order ↔ v ∈ order := fun v => by rw [mem_visitOrder, hd]; tauto
  have hin : ∀ l1 v l2, visitOrder d order = l1 ++ v :: l2 → G.parents v = [] → ∀ w ∈ l1, G.parents w = [] := by
    intro l1 v l2 ev hpv w hw
    by_contra hne
    have hwo : w ∈ order := (hmem w).mp (by rw [ev]; simp [hw])
    have hvo : v ∈ order := (hmem v).mp (by rw [ev]; simp)
    have hs := visitOrder_sorted d order
    rw [ev, List.pairwise_append] at hs
    have hdv : d v = some (M : ℤ) := (hg v hvo).1 hpv
    obtain ⟨k, hk, hmin⟩ := (hg w hwo).2 hne
    have h1 := hs.2.2 w hw v (by simp) k M hk hdv
    obtain ⟨p, hp, hpk⟩ := hmin.2
    obtain ⟨n, en, -⟩ := hdl p (topological_parent_mem G.parents ht hwo hp)
    rw [hpk] at en
    have := Option.some.inj en
    omega
  have hc : ∀ v ∈ order, (f v).carried m inp.x = f v := fun v hv => by rw [hf v hv, carried_idem]
  have key := convertLoopE_ok G.parents (fun v => (G.op v).call D m eps slope inp) (inp.toList m) (fun v => (f v).toList m)
    (visitOrder d order) hvt hin (fun v hv h => ?_) (fun v hv _ => ?_) (visitOrder d order) [] (inp.toList m, fun _ => none) rfl (by simp) (fun _ => rfl)
  · obtain ⟨st, e2, h⟩ := key
    refine ⟨fun v => (st.2 v).map (List.map Ten.toB), by simp only [KGraph.forwardMap, e, Except.bind, e2, Except.map], fun v hv => ?_⟩
    simp only [h, if_pos ((hmem v).2 hv), Option.map_some]
  · have hv := (hmem v).1 hv
    simp only [hf v hv, toList_carried]
    exact KOp.forward_nil D m eps slope inp _ (by rw [h]; rfl) _
  · have hv := (hmem v).1 hv
    rw [KOp.call_nodes, ofNodes_congr (F := fun s => Full X (Idx [n]) (Idx s) ℝ) (sh := G.sh) _ f _ fun w hw => hc w (topological_parent_mem G.parents ht hv hw)]
    conv_rhs => rw [hf v hv, toList_carried]

theorem exists_isBounds (D : PertDomain X (Idx [n]) ℝ) (m : Mode) (eps : ℝ) (slope : Slope) (inp : Full X (Idx [n]) (Idx [n]) ℝ) (G : KGraph n)
    (order : List ℕ) (ht : Topological G.parents order) : ∃ f, G.IsBounds D m eps slope inp order f := by
  have : ∀ v, Nonempty (Full X (Idx [n]) (Idx (G.sh v)) ℝ) := fun v =>
    ⟨⟨inp.x, fun _ => 0, fun _ _ => 0, fun _ => 0, fun _ => 0, fun _ _ => 0, fun _ => 0, fun _ => 0, fun _ => 0⟩⟩
  exact exists_nodes G.parents (T := fun v => Full X (Idx [n]) (Idx (G.sh v)) ℝ)
    (fun v f => ((G.op v).forward D m eps slope inp (HList.ofNodes f (G.parents v))).carried m inp.x)
    (fun v g g' h => by
      simp only [ofNodes_congr (F := fun s => Full X (Idx [n]) (Idx s) ℝ) (sh := G.sh) g g' _ h]) ht

theorem exists_isForward (D : PertDomain X (Idx [n]) ℝ) (m : Mode) (eps : ℝ) (slope : Slope) (uf : Bool) (inp : Full X (Idx [n]) (Idx [n]) ℝ)
    (G : KGraph n) (order : List ℕ) (ht : Topological G.parents order) : ∃ fw, G.IsForward D m eps slope uf inp order fw := by
  cases uf with
  | false => exact ⟨fun _ => none, fun _ => rfl⟩
  | true =>
    obtain ⟨f, hf⟩ := exists_isBounds D m eps slope inp G order ht
    exact ⟨fun v => some (f v), f, hf, fun _ _ => rfl⟩

theorem exists_isCrown (D : PertDomain X (Idx [n]) ℝ) (stack : (Idx [n] → ℝ) → (Idx [n] → ℝ) → X) (m : Mode) (eps : ℝ) (slope : Slope)
    (inp : Full X (Idx [n]) (Idx [n]) ℝ) (G : KGraph n) (order : List ℕ) (ht : Topological G.parents order)
    (fw : (v : ℕ) → Option (Full X (Idx [n]) (Idx (G.sh v)) ℝ)) : ∃ w, G.IsCrown D stack m eps slope inp order fw w := by
  have : ∀ v, Nonempty (GNode n (G.sh v)) := fun v => ⟨⟨.error .valueError, fun _ _ => .error .valueError⟩⟩
  exact exists_nodes G.parents (T := fun v => GNode n (G.sh v))
    (fun v w => (G.op v).node D m eps slope inp (HList.ofNodes (fun u => (w u, crownOut D stack m inp (fw u) (w u))) (G.parents v)))
    (fun v g g' h => by
      rw [ofNodes_congr (F := fun s => GNode n s × Except PyErr (Full X (Idx [n]) (Idx s) ℝ)) (sh := G.sh) _
        (fun u => (g' u, crownOut D stack m inp (fw u) (g' u))) _ fun u hu => by rw [h u hu]]) ht

theorem isForward_carried {D : PertDomain X (Idx [n]) ℝ} {m : Mode} {eps : ℝ} {slope : Slope} {uf : Bool} {inp : Full X (Idx [n]) (Idx [n]) ℝ}
    {G : KGraph n} {order : List ℕ} {fw : (v : ℕ) → Option (Full X (Idx [n]) (Idx (G.sh v)) ℝ)} (h : G.IsForward D m eps slope uf inp order fw) :
    ∀ v ∈ order, ∀ f, fw v = some f → f.carried m inp.x = f := by
  intro v hv f e
  cases uf with
  | false => rw [h v] at e; cases e
  | true =>
    obtain ⟨g, hg, h⟩ := h
    rw [h v hv] at e
    obtain rfl := Option.some.inj e
    rw [hg v hv, carried_idem]

/-! ### Soundness of one node -/

/-- What is known of the backward pass from a node and of the bounds of its output, at a point. -/
def NodeHolds (m : Mode) (inp : Full X (Idx [n]) (Idx [n]) ℝ) (p : Idx [n] → ℝ) (s : List ℕ)
    (w : GNode n s × Except PyErr (Full X (Idx [n]) (Idx s) ℝ)) (y : Idx s → ℝ) : Prop :=
  (∀ c B R, w.1.next c B = .ok R → ∀ t, B.Holds y t → R.Holds p t) ∧ ∀ f, w.2 = .ok f → f.x = inp.x ∧ Valid m false f p y

theorem KOp.node_holds (D : PertDomain X (Idx [n]) ℝ) (m : Mode) (eps : ℝ) (he : 0 < eps) (slope : Slope)
    (inp : Full X (Idx [n]) (Idx [n]) ℝ) (S : Set (Idx [n] → ℝ)) (hD : D.Sound inp.x S) (p : Idx [n] → ℝ) (hp : p ∈ S)
    (hi : Valid m false inp p p) {as : List (List ℕ)} {b : List ℕ} (o : KOp n as b) (ho : o.HasBack) (hwf : o.WF)
    (ws : HList (fun s => GNode n s × Except PyErr (Full X (Idx [n]) (Idx s) ℝ)) as) (hs : o.SafeBack D m eps ws)
    (ys : HList (fun s => Idx s → ℝ) as) (h : HAll (NodeHolds m inp p) ws ys) :
    (∀ R, (o.node D m eps slope inp ws).first = .ok R → R.Holds p (o.eval p ys)) ∧
    ∀ c B R, (o.node D m eps slope inp ws).next c B = .ok R → ∀ t, B.Holds (o.eval p ys) t → R.Holds p t := by
  cases o with
  | input =>
    refine ⟨fun R e => ?_, fun c B R e t ht => ?_⟩
    · obtain rfl := Except.ok.inj e
      exact fuse_holds m inp p hi _ _ (holds_identity p)
    · obtain rfl := Except.ok.inj e
      exact fuse_merge_holds m inp p hi _ _ ht
  | @layer a b l =>
    cases h with
    | @cons _ _ w y t u h ht =>
      have hl : ∀ B0, w.2.bind (l.back D m eps slope) = .ok B0 → B0.Holds y (l.eval y) := by
        intro B0 e
        cases ew : w.2 with
        | error e' => rw [ew] at e; cases e
        | ok f =>
          rw [ew] at e
          obtain ⟨hfx, hfv⟩ := h.2 f ew
          have hfD : D.Sound f.x S := by rw [hfx]; exact hD
          cases l with
          | lay l =>
            obtain rfl := Except.ok.inj e
            exact l.backward_holds D m eps he slope hwf f S hfD (hs f ew) p hp y hfv
          | act g =>
            obtain ⟨g1, g2, Sg, e1, hcall⟩ := call_sShape (ι := Idx [n]) (κ := Idx b) D m eps slope none g ho.1
            have e : g.toBack.call D m eps slope none f = .ok B0 := e
            rw [hcall] at e
            obtain rfl := Except.ok.inj e
            have hc := tighten_const D m false f S hfD p hp _ hfv
            intro k
            simp only [backwardSShape, Back.ofDiag, diagLike_sum, Step.eval, e1]
            have hos := hs f ew k
            refine (C18_iff Sg eps he _ _ ((hc k).1.trans (hc k).2) ?_).2 hos _ (hc k).1 (hc k).2
            rcases hos with h | ⟨h1, h | h⟩
            · exact .inl h
            · exact .inr ⟨h.ne', by linarith⟩
            · exact .inr ⟨by linarith, h.ne⟩
          | pool win hw => exact ho.elim
      refine ⟨fun R e => ?_, fun c B R e t ht => ?_⟩
      · simp only [KOp.node] at e
        cases eb : w.2.bind (l.back D m eps slope) with
        | error e' => rw [eb] at e; cases e
        | ok B0 =>
          rw [eb] at e
          exact h.1 _ _ _ e _ (hl B0 eb)
      · simp only [KOp.node] at e
        cases eb : w.2.bind (l.back D m eps slope) with
        | error e' => rw [eb] at e; cases e
        | ok B0 =>
          rw [eb] at e
          exact h.1 _ _ _ e _ (holds_merge _ B y (l.eval y) t (hl B0 eb) ht)
  | merge op a r => exact ho.elim
  | subtract a => exact ho.elim
  | concat as j0 b e => exact ho.elim
  | dot e0 e1 e => exact ho.elim

/-- The same on a single point. -/
def NodeExact (m : Mode) (inp : Full X (Idx [n]) (Idx [n]) ℝ) (p : Idx [n] → ℝ) (s : List ℕ)
    (w : GNode n s × Except PyErr (Full X (Idx [n]) (Idx s) ℝ)) (y : Idx s → ℝ) : Prop :=
  (∀ c B R, w.1.next c B = .ok R → ∀ t, B.ExactAt y t → R.ExactAt p t) ∧ ∀ f, w.2 = .ok f → f.x = inp.x ∧ ExactAt m f p y

theorem KOp.node_exact (D : PertDomain X (Idx [n]) ℝ) (m : Mode) (eps : ℝ) (slope : Slope) (inp : Full X (Idx [n]) (Idx [n]) ℝ)
    (p : Idx [n] → ℝ) (hD : D.Point inp.x p) (hi : ExactAt m inp p p) {as : List (List ℕ)} {b : List ℕ} (o : KOp n as b) (ho : o.HasBack)
    (ws : HList (fun s => GNode n s × Except PyErr (Full X (Idx [n]) (Idx s) ℝ)) as)
    (ys : HList (fun s => Idx s → ℝ) as) (h : HAll (NodeExact m inp p) ws ys) :
    (∀ R, (o.node D m eps slope inp ws).first = .ok R → R.ExactAt p (o.eval p ys)) ∧
    ∀ c B R, (o.node D m eps slope inp ws).next c B = .ok R → ∀ t, B.ExactAt (o.eval p ys) t → R.ExactAt p t := by
  have hid : (Back.identity : Back (Idx [n]) (Idx [n]) ℝ).ExactAt p p := exactAt_of_exact exact_identity p
  cases o with
  | input =>
    refine ⟨fun R e => ?_, fun c B R e t ht => ?_⟩
    · obtain rfl := Except.ok.inj e
      exact fuse_exactAt m inp p hi _ _ hid
    · obtain rfl := Except.ok.inj e
      exact fuse_exactAt m inp p hi _ t (merge_exactAt Back.identity B p p t hid ht)
  | @layer a b l =>
    cases h with
    | @cons _ _ w y t u h ht =>
      have hl : ∀ B0, w.2.bind (l.back D m eps slope) = .ok B0 → B0.ExactAt y (l.eval y) := by
        intro B0 e
        cases ew : w.2 with
        | error e' => rw [ew] at e; cases e
        | ok f =>
          rw [ew] at e
          obtain ⟨hfx, hfv⟩ := h.2 f ew
          have hfD : D.Point f.x p := by rw [hfx]; exact hD
          cases l with
          | lay l =>
            obtain rfl := Except.ok.inj e
            exact l.backward_exact D m eps slope f p hfD y hfv
          | act g =>
            obtain ⟨g1, g2, Sg, e1, hcall⟩ := call_sShape (ι := Idx [n]) (κ := Idx b) D m eps slope none g ho.1
            have e : g.toBack.call D m eps slope none f = .ok B0 := e
            rw [hcall] at e
            obtain rfl := Except.ok.inj e
            have hc := (tighten_exact D m true true f p hfD _ hfv).2 rfl
            intro k
            simp only [backwardSShape, Back.ofDiag, diagLike_sum, Step.eval, e1, hc]
            exact sShapeHull_point Sg eps _
          | pool win hw => exact ho.elim
      refine ⟨fun R e => ?_, fun c B R e t ht => ?_⟩
      · simp only [KOp.node] at e
        cases eb : w.2.bind (l.back D m eps slope) with
        | error e' => rw [eb] at e; cases e
        | ok B0 =>
          rw [eb] at e
          exact h.1 _ _ _ e _ (hl B0 eb)
      · simp only [KOp.node] at e
        cases eb : w.2.bind (l.back D m eps slope) with
        | error e' => rw [eb] at e; cases e
        | ok B0 =>
          rw [eb] at e
          exact h.1 _ _ _ e _ (merge_exactAt _ B y (l.eval y) t (hl B0 eb) ht)
  | merge op a r => exact ho.elim
  | subtract a => exact ho.elim
  | concat as j0 b e => exact ho.elim
  | dot e0 e1 e => exact ho.elim

theorem KOp.back_noBack (D : PertDomain X (Idx [n]) ℝ) (m : Mode) (eps : ℝ) (slope : Slope) (x0 : X) {as : List (List ℕ)} {b : List ℕ}
    (o : KOp n as b) (ho : o.NoBack) (t l : List (BTen X)) : o.back D m eps slope x0 t ≠ .ok l := by
  cases o with
  | input => exact ho.elim
  | @layer a b st =>
    cases st with
    | lay _ => exact ho.elim
    | act g =>
      obtain rfl : g = .exponential := ho
      simp only [KOp.back]
      cases readListB n x0 m b t with
      | error _ => simp [Except.bind]
      | ok f => simp [Except.bind, Step.back, SmoothAct.toBack, BackFn.call, Except.map]
    | pool _ _ => simp [KOp.back]
  | merge op a r => cases op <;> simp [KOp.back]
  | subtract a => simp [KOp.back]
  | concat as j0 b e => simp [KOp.back]
  | dot e0 e1 e => simp [KOp.back]

theorem KOp.noSoftplus_of_hasBack {as : List (List ℕ)} {b : List ℕ} (o : KOp n as b) (ho : o.HasBack) : o.NoSoftplus := by
  cases o with
  | layer st =>
    cases st with
    | act g => rintro rfl; exact ho.1
    | _ => trivial
  | _ => trivial

end Nodes

/-! ### Exceptions -/

section Raises
variable {τ : Type*} {parents : ℕ → List ℕ} {back : ℕ → List τ → Except PyErr (List τ)} {merge fuse setMode : List τ → Except PyErr (List τ)}

/-- `crown_` only succeeds if the backward layers of all the nodes above the node succeed. -/
theorem crownGo_back (im : ℕ → Option (List τ)) : ∀ fuel v bb cm q, crownGo parents back merge fuse im fuel v bb cm = .ok q →
    (∀ w b, cm w = some b → ∃ t, back w t = .ok b) →
    (∀ w b, q.2 w = some b → ∃ t, back w t = .ok b) ∧ ∀ u k, Walk parents u v k → ∃ t b, back u t = .ok b
  | 0, _, _, _, _, h, _ => by cases h
  | fuel + 1, v, bb, cm, q, h, hc => by
    cases e : im v with
    | none => simp [crownGo, e] at h
    | some inputs =>
      simp only [crownGo, e] at h
      have memo : ∀ st, crownMemo back v inputs cm = .ok st → (∀ w b, st.2 w = some b → ∃ t, back w t = .ok b) ∧ ∃ t b, back v t = .ok b := by
        intro st hst
        cases ec : cm v with
        | some b =>
          rw [crownMemo, ec] at hst
          obtain rfl := Except.ok.inj hst
          obtain ⟨t, ht⟩ := hc v b ec
          exact ⟨hc, t, b, ht⟩
        | none =>
          simp only [crownMemo, ec] at hst
          cases eb : back v inputs with
          | error _ => rw [eb] at hst; cases hst
          | ok b =>
            rw [eb] at hst
            obtain rfl := Except.ok.inj hst
            refine ⟨fun w b' hw => ?_, inputs, b, eb⟩
            by_cases hwv : w = v
            · subst hwv
              simp only [Function.update_self] at hw
              obtain rfl := Option.some.inj hw
              exact ⟨inputs, eb⟩
            · simp only [Function.update_of_ne hwv] at hw
              exact hc w b' hw
      cases em : crownMemo back v inputs cm with
      | error _ => rw [em] at h; cases h
      | ok st =>
        obtain ⟨hc', hv⟩ := memo st em
        rw [em] at h
        simp only [Except.bind] at h
        cases ej : crownJoin merge st.1 bb with
        | error _ => rw [ej] at h; cases h
        | ok b =>
          rw [ej] at h
          simp only [] at h
          cases hps : parents v with
          | nil =>
            rw [hps] at h
            simp only [] at h
            cases ef : fuse (inputs ++ b) with
            | error _ => rw [ef] at h; cases h
            | ok r =>
              rw [ef] at h
              obtain rfl := Except.ok.inj h
              refine ⟨hc', fun u k hw => ?_⟩
              cases hw with
              | nil => exact hv
              | snoc _ hp => simp [hps] at hp
          | cons p ps =>
            cases ps with
            | cons _ _ => rw [hps] at h; cases h
            | nil =>
              rw [hps] at h
              obtain ⟨h1, h2⟩ := crownGo_back im fuel p b st.2 q h hc'
              refine ⟨h1, fun u k hw => ?_⟩
              cases hw with
              | nil => exact hv
              | snoc hw hp =>
                have := hps ▸ hp
                simp only [List.mem_singleton] at this
                subst this
                exact h2 u _ hw

theorem crownGather_back (inp : List τ) (fm im : ℕ → Option (List τ)) (fuel : ℕ) : ∀ ps cm q,
    crownGather parents back merge fuse setMode inp fm im fuel ps cm = .ok q → (∀ w b, cm w = some b → ∃ t, back w t = .ok b) →
    ∀ w b, q.2 w = some b → ∃ t, back w t = .ok b
  | [], cm, q, h, hc => by obtain rfl := Except.ok.inj h; exact hc
  | p :: t, cm, q, h, hc => by
    simp only [crownGather] at h
    cases e : fm p with
    | some o =>
      rw [e] at h
      simp only [] at h
      cases er : crownGather parents back merge fuse setMode inp fm im fuel t cm with
      | error _ => rw [er] at h; cases h
      | ok r =>
        rw [er] at h
        obtain rfl := Except.ok.inj h
        exact crownGather_back inp fm im fuel t cm r er hc
    | none =>
      rw [e] at h
      simp only [] at h
      cases eg : crownGo parents back merge fuse im fuel p [] cm with
      | error _ => rw [eg] at h; cases h
      | ok g =>
        rw [eg] at h
        simp only [Except.bind] at h
        cases es : setMode (inp ++ g.1) with
        | error _ => rw [es] at h; cases h
        | ok s =>
          rw [es] at h
          simp only [] at h
          cases er : crownGather parents back merge fuse setMode inp fm im fuel t g.2 with
          | error _ => rw [er] at h; cases h
          | ok r =>
            rw [er] at h
            obtain rfl := Except.ok.inj h
            exact crownGather_back inp fm im fuel t g.2 r er (crownGo_back im fuel p [] cm g eg hc).1

theorem crownInputs_back (inp : List τ) (fm : ℕ → Option (List τ)) (fuel : ℕ) : ∀ visit st q,
    crownInputs parents back merge fuse setMode inp fm fuel visit st = .ok q → (∀ w b, st.2 w = some b → ∃ t, back w t = .ok b) →
    ∀ w b, q.2 w = some b → ∃ t, back w t = .ok b
  | [], st, q, h, hc => by obtain rfl := Except.ok.inj h; exact hc
  | v :: t, st, q, h, hc => by
    simp only [crownInputs] at h
    cases hps : parents v with
    | nil =>
      rw [hps] at h
      exact crownInputs_back inp fm fuel t _ q h hc
    | cons p ps =>
      rw [hps] at h
      simp only [] at h
      cases eg : crownGather parents back merge fuse setMode inp fm st.1 fuel (p :: ps) st.2 with
      | error _ => rw [eg] at h; cases h
      | ok g =>
        rw [eg] at h
        exact crownInputs_back inp fm fuel t _ q h (crownGather_back inp fm st.1 fuel (p :: ps) st.2 g eg hc)

end Raises

end Decomon
