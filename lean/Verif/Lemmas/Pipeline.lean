import Verif.SpecPipeline
import Verif.Lemmas.AnyNet
import Verif.Props.Nested
import Verif.Props.AnyNet

/-! Lemmas about lists of tensors and about the conversion of a graph. -/

namespace Decomon

/-- Two lists related element by element. -/
inductive HAll {σ : Type} {F G : σ → Type*} (P : (s : σ) → F s → G s → Prop) : {l : List σ} → HList F l → HList G l → Prop
  | nil : HAll P .nil .nil
  | cons {s : σ} {l : List σ} {a : F s} {b : G s} {t : HList F l} {u : HList G l} (h : P s a b) (ht : HAll P t u) :
      HAll P (.cons a t) (.cons b u)

section HAll
variable {σ : Type} {F G : σ → Type*} {P : (s : σ) → F s → G s → Prop}

theorem HAll.get : {l : List σ} → {t : HList F l} → {u : HList G l} → HAll P t u → (j : Fin l.length) → P (l.get j) (t.get j) (u.get j)
  | _, _, _, .cons h _, ⟨0, _⟩ => h
  | _, _, _, .cons _ ht, ⟨_ + 1, h⟩ => ht.get ⟨_, Nat.lt_of_succ_lt_succ h⟩

theorem HAll.rep {s : σ} : (r : ℕ) → (t : HList F (List.replicate r s)) → (u : HList G (List.replicate r s)) → HAll P t u → (i : Fin r) →
    P s (t.rep r i) (u.rep r i)
  | _ + 1, .cons _ _, .cons _ _, .cons h _, ⟨0, _⟩ => h
  | r + 1, .cons _ t, .cons _ u, .cons _ ht, ⟨_ + 1, h⟩ => HAll.rep r t u ht ⟨_, Nat.lt_of_succ_lt_succ h⟩

theorem hAll_nodes {sh : ℕ → σ} (f : (v : ℕ) → F (sh v)) (g : (v : ℕ) → G (sh v)) :
    ∀ l : List ℕ, (∀ w ∈ l, P _ (f w) (g w)) → HAll P (HList.ofNodes f l) (HList.ofNodes g l)
  | [], _ => .nil
  | w :: t, h => .cons (h w (by simp)) (hAll_nodes f g t fun v hv => h v (by simp [hv]))

theorem ofNodes_congr {sh : ℕ → σ} (f g : (v : ℕ) → F (sh v)) :
    ∀ l : List ℕ, (∀ w ∈ l, f w = g w) → HList.ofNodes f l = HList.ofNodes g l
  | [], _ => rfl
  | w :: t, h => by simp only [HList.ofNodes, h w (by simp), ofNodes_congr f g t fun v hv => h v (by simp [hv])]

end HAll

section
variable {X ι : Type}

theorem readList_toList (x0 : X) (m : Mode) {s : List ℕ} (f : Full X ι (Idx s) ℝ) : readList x0 m s (f.toList m) = .ok (f.carried m x0) := by
  cases m <;> simp [readList, Full.toList, Full.toNine, extractForMode, fullInputsList, nbTensors, readNine, Ten.toDom, Ten.toVec, Ten.toMat,
    Full.carried, getAffine, getIbp, Except.bind, bind, pure, Except.pure]

theorem carried_valid [Fintype ι] {m : Mode} {x0 : X} {κ : Type} {f : Full X ι κ ℝ} {p : ι → ℝ} {y : κ → ℝ} (v : Valid m false f p y) :
    Valid m false (f.carried m x0) p y := by
  refine ⟨fun hi k => ?_, fun ha k => ?_, by simp⟩
  · simp only [Full.carried, hi, if_true]; exact v.const hi k
  · simp only [Full.carried, ha, if_true]; exact v.aff ha k

theorem carried_exact [Fintype ι] {m : Mode} {x0 : X} {κ : Type} {f : Full X ι κ ℝ} {p : ι → ℝ} {y : κ → ℝ} (v : ExactAt m f p y) :
    ExactAt m (f.carried m x0) p y := by
  refine ⟨fun hi k => ?_, fun ha k => ?_⟩
  · simp only [Full.carried, hi, if_true]; exact v.const hi k
  · simp only [Full.carried, ha, if_true]; exact v.aff ha k

theorem carried_x {m : Mode} {x0 : X} {κ : Type} {f : Full X ι κ ℝ} (h : f.x = x0) : (f.carried m x0).x = x0 := by
  simp [Full.carried, h]

theorem toList_length (m : Mode) {s : List ℕ} (f : Full X ι (Idx s) ℝ) : (f.toList m).length = nbTensors m false := C03_length m false _

theorem toList_ne (m : Mode) {s : List ℕ} (f : Full X ι (Idx s) ℝ) : f.toList m ≠ [] := by
  cases m <;> simp [Full.toList, extractForMode]

theorem carried_idem (m : Mode) (x0 : X) {κ : Type} (f : Full X ι κ ℝ) : (f.carried m x0).carried m x0 = f.carried m x0 := by
  cases m <;> simp [Full.carried, getAffine, getIbp]

theorem toList_carried (m : Mode) (x0 : X) {s : List ℕ} (f : Full X ι (Idx s) ℝ) : (f.carried m x0).toList m = f.toList m := by
  cases m <;> simp [Full.carried, getAffine, getIbp, Full.toList, Full.toNine, extractForMode]

/-- Reading the tensors of several nodes. -/
theorem readLists_nodes (x0 : X) (m : Mode) {sh : ℕ → List ℕ} (f : (v : ℕ) → Full X ι (Idx (sh v)) ℝ) :
    ∀ l : List ℕ, readLists x0 m (l.map sh) (l.map fun w => (f w).toList m) = .ok (HList.ofNodes (fun w => (f w).carried m x0) l)
  | [] => rfl
  | w :: t => by
    change readLists x0 m (sh w :: t.map sh) ((f w).toList m :: t.map fun w => (f w).toList m) = _
    simp only [readLists, readList_toList, Except.bind, readLists_nodes x0 m f t, Except.map]
    rfl

end

section
variable {X : Type} {n : ℕ}

theorem Step.forward_x {ι : Type} (D : PertDomain X ι ℝ) (m : Mode) (eps : ℝ) (slope : Slope) {a b : List ℕ} (l : Step a b)
    (f : Full X ι (Idx a) ℝ) : (l.forward D m eps slope f).x = f.x := by
  cases l with
  | lay l => exact Lay.forward_x ..
  | act g => exact SmoothAct.forwardIn_x ..
  | pool win hw => simp [Step.forward, maxPoolFastT]

theorem Step.forward_valid {ι : Type} [Fintype ι] (D : PertDomain X ι ℝ) (m : Mode) (eps : ℝ) (he : 0 < eps) (slope : Slope) {a b : List ℕ}
    (l : Step a b) (hl : l.WF) (f : Full X ι (Idx a) ℝ) (hg : l.Good D m eps f) (R : Set (ι → ℝ)) (hD : D.Sound f.x R) (p : ι → ℝ) (hp : p ∈ R)
    (y : Idx a → ℝ) (v : Valid m false f p y) : Valid m false (l.forward D m eps slope f) p (l.eval y) := by
  cases l with
  | lay l => exact Lay.forward_valid D m eps he slope l hl f R hD hg p hp y v
  | act g => exact SmoothAct.forwardIn_valid D m eps he slope g f R hD p hp y v hg
  | pool win hw =>
    refine C15_maxpool_fast_valid D m win hw f R hD p hp y v _ fun k => ⟨?_, fun j hj => Finset.le_sup' _ hj⟩
    obtain ⟨j, hj, e⟩ := Finset.exists_mem_eq_sup' (hw k) y
    exact ⟨j, hj, e⟩

theorem KOp.forward_x (D : PertDomain X (Idx [n]) ℝ) (m : Mode) (eps : ℝ) (slope : Slope) (inp : Full X (Idx [n]) (Idx [n]) ℝ)
    {as : List (List ℕ)} {b : List ℕ} (o : KOp n as b) {G : List ℕ → Type} (fs : HList (fun s => Full X (Idx [n]) (Idx s) ℝ) as) (ys : HList G as)
    (h : HAll (fun _ f _ => f.x = inp.x) fs ys) : (o.forward D m eps slope inp fs).x = inp.x := by
  cases o with
  | input => rfl
  | layer l => cases h with | cons h _ => simp only [KOp.forward, Step.forward_x, h]
  | merge op a r =>
    cases h with
    | cons h ht =>
      refine NaryOp.forwardIn_x D m eps op _ _ _ h fun f hf => ?_
      obtain ⟨i, rfl⟩ := (List.mem_ofFn' _ _).1 hf
      exact ht.rep r _ _ i
  | subtract a => cases h with | cons h ht => cases ht with | cons h1 _ => simp [KOp.forward, subtractT, addT, h]
  | concat as j0 b e => exact h.get j0
  | dot e0 e1 e => cases h with | cons h ht => cases ht with | cons h1 _ => simp [KOp.forward, Full.reindex, dotLayerT, sumT, multiplyT, h]

theorem KOp.forward_valid (D : PertDomain X (Idx [n]) ℝ) (m : Mode) (eps : ℝ) (he : 0 < eps) (slope : Slope)
    (inp : Full X (Idx [n]) (Idx [n]) ℝ) (R : Set (Idx [n] → ℝ)) (hD : D.Sound inp.x R) (p : Idx [n] → ℝ) (hp : p ∈ R)
    (hi : Valid m false inp p p) {as : List (List ℕ)} {b : List ℕ} (o : KOp n as b) (ho : o.WF)
    (fs : HList (fun s => Full X (Idx [n]) (Idx s) ℝ) as) (ys : HList (fun s => Idx s → ℝ) as) (hg : o.Good D m eps fs)
    (h : HAll (fun _ f y => f.x = inp.x ∧ Valid m false f p y) fs ys) :
    Valid m false (o.forward D m eps slope inp fs) p (o.eval p ys) := by
  have hx : ∀ {κ : Type} {f : Full X (Idx [n]) κ ℝ}, f.x = inp.x → D.Sound f.x R := fun e => by rw [e]; exact hD
  cases o with
  | input => exact hi
  | layer l => cases h with | cons h _ => exact l.forward_valid D m eps he slope ho _ hg R (hx h.1) p hp _ h.2
  | merge op a r =>
    cases h with
    | @cons _ _ _ _ t u h ht =>
      refine NaryOp.forwardIn_valid D m eps he op _ (t.rep r) R p hp _ (u.rep r) (hx h.1) (fun i => hx (ht.rep r _ _ i).1) h.2
        (fun i => (ht.rep r _ _ i).2) ?_ ?_
      · rintro rfl; exact hg
      · rintro rfl; exact hg
  | subtract a =>
    cases h with
    | cons h ht => cases ht with | cons h1 _ => exact C07_subtract_valid D m false _ _ R (hx h.1) (hx h1.1) p hp _ _ h.2 h1.2
  | concat as j0 b e =>
    exact valid_reindex_raw m false e _ p _
      (C14_concat_valid D m j0 _ R p hp (fun j => ys.get j) (fun j => hx (h.get j).1) fun j => (h.get j).2)
  | dot e0 e1 e =>
    cases h with
    | cons h ht =>
      cases ht with
      | cons h1 _ => exact valid_reindex_raw m false e _ p _ (C62_dot_valid D m e0 e1 _ _ R (hx h.1) (hx h1.1) p hp _ _ h.2 h1.2)

theorem Lay.sliver_ibp {ι κ κ' : Type} (D : PertDomain X ι ℝ) (eps : ℝ) (l : Lay ℝ κ κ') (f : Full X ι κ ℝ) : l.SliverOK D .ibp eps f := by
  cases l <;> simp [Lay.SliverOK, SliverFree, getAffine]

theorem Step.good_ibp {ι : Type} (D : PertDomain X ι ℝ) (eps : ℝ) {a b : List ℕ} (l : Step a b) (f : Full X ι (Idx a) ℝ) : l.Good D .ibp eps f := by
  cases l with
  | lay l => exact Lay.sliver_ibp D eps l f
  | act g => simp [Step.Good, getAffine]
  | pool win hw => trivial

theorem KOp.good_ibp (D : PertDomain X (Idx [n]) ℝ) (eps : ℝ) {as : List (List ℕ)} {b : List ℕ} (o : KOp n as b)
    (fs : HList (fun s => Full X (Idx [n]) (Idx s) ℝ) as) : o.Good D .ibp eps fs := by
  cases o with
  | layer l => cases fs; exact l.good_ibp D eps _
  | merge op a r => cases fs; cases op <;> first | trivial | exact foldSliverFree_ibp D eps _ _
  | _ => simp [KOp.Good]

theorem Step.forward_exact {ι : Type} [Fintype ι] (D : PertDomain X ι ℝ) (m : Mode) (eps : ℝ) (slope : Slope) {a b : List ℕ} (l : Step a b)
    (hl : getAffine m = true → l.NoSoftplus) (f : Full X ι (Idx a) ℝ) (p : ι → ℝ) (hD : D.Point f.x p) (y : Idx a → ℝ) (v : ExactAt m f p y) :
    ExactAt m (l.forward D m eps slope f) p (l.eval y) := by
  cases l with
  | lay l => exact Lay.forward_exact D m eps slope l _ p hD _ v
  | act g => exact SmoothAct.forwardIn_exact D m eps slope g hl _ p hD _ v
  | pool win hw =>
    have hc := (tighten_exact D m true true _ p hD _ v).2 rfl
    have e1 : (f.tighten D m true true).lc = y := funext fun k => (hc k).1
    have e2 : (f.tighten D m true true).uc = y := funext fun k => (hc k).2
    refine ⟨fun _ k => ?_, fun ha k => ?_⟩
    · simp only [Step.forward, Step.eval, maxPoolFastT, e1, e2, maxPool, and_self]
    · simp only [Step.forward, Step.eval, maxPoolFastT, e1, e2, maxPool, ha, if_true, zero_mul]
      simp [affEval]

theorem exact_reindex {ι : Type} [Fintype ι] {m : Mode} {κ κ' : Type} (e : κ' → κ) {f : Full X ι κ ℝ} {p : ι → ℝ} {y : κ → ℝ} (v : ExactAt m f p y) :
    ExactAt m (f.reindex e) p (fun k => y (e k)) := ⟨fun h _ => v.const h _, fun h _ => v.aff h _⟩

theorem KOp.forward_exact (D : PertDomain X (Idx [n]) ℝ) (m : Mode) (eps : ℝ) (slope : Slope) (inp : Full X (Idx [n]) (Idx [n]) ℝ)
    (p : Idx [n] → ℝ) (hD : D.Point inp.x p) (hi : ExactAt m inp p p) {as : List (List ℕ)} {b : List ℕ} (o : KOp n as b)
    (ho : getAffine m = true → o.NoSoftplus) (fs : HList (fun s => Full X (Idx [n]) (Idx s) ℝ) as) (ys : HList (fun s => Idx s → ℝ) as)
    (h : HAll (fun _ f y => f.x = inp.x ∧ ExactAt m f p y) fs ys) :
    ExactAt m (o.forward D m eps slope inp fs) p (o.eval p ys) := by
  have hx : ∀ {κ : Type} {f : Full X (Idx [n]) κ ℝ}, f.x = inp.x → D.Point f.x p := fun e => by rw [e]; exact hD
  cases o with
  | input => exact hi
  | layer l => cases h with | cons h _ => exact l.forward_exact D m eps slope ho _ p (hx h.1) _ h.2
  | merge op a r =>
    cases h with
    | @cons _ _ _ _ t u h ht =>
      exact NaryOp.forwardIn_exact D m eps op _ (t.rep r) p (hx h.1) (fun i => hx (ht.rep r _ _ i).1) _ (u.rep r) h.2 fun i => (ht.rep r _ _ i).2
  | subtract a =>
    cases h with
    | cons h ht =>
      cases ht with
      | cons h1 _ =>
        have := addT_exact D m _ _ p (hx h.1) (by simpa [minusT] using hx h1.1) _ _ h.2 (minusT_exact D m _ p (hx h1.1) _ h1.2)
        simpa only [KOp.forward, KOp.eval, subtractT, sub_eq_add_neg] using this
  | concat as j0 b e =>
    refine exact_reindex (y := fun k => ys.get k.1 k.2) e ?_
    have a := fun j => (tighten_exact D m false true _ p (hx (h.get j).1) _ (h.get j).2).1
    refine ⟨fun hi k => ?_, fun ha k => ?_⟩
    · simp only [concatLayerT, hi, if_true]
      exact (a k.1).const hi k.2
    · simp only [concatLayerT, ha, if_true]
      exact (a k.1).aff ha k.2
  | @dot a0 a1 b o0 o1 nn _ e0 e1 e =>
    cases h with
    | @cons _ _ f0 y0 _ _ h ht =>
      cases ht with
      | @cons _ _ f1 y1 _ _ h1 _ =>
        refine exact_reindex (y := fun k => ∑ t, y0 (e0 (t, k.1)) * y1 (e1 (t, k.2))) e ?_
        simp only [dotLayerT]
        have r0 := exact_reindex (fun q : (o0 × o1) × nn => e0 (q.2, q.1.1)) h.2
        have r1 := exact_reindex (fun q : (o0 × o1) × nn => e1 (q.2, q.1.2)) h1.2
        have mm := multiplyT_exact D m _ _ p (by simpa [Full.reindex] using hx h.1) (by simpa [Full.reindex] using hx h1.1) _ _ r0 r1
        have t := (tighten_exact D m false true _ p (by simpa [multiplyT, Full.reindex] using hx h.1) _ mm).1
        have hsum : ∀ (w : nn → Idx [n] → ℝ) (b : nn → ℝ), affEval (fun i => ∑ j, w j i) (∑ j, b j) p = ∑ j, affEval (w j) (b j) p := by
          intro w b
          simp only [affEval, Finset.sum_add_distrib, Finset.sum_mul]
          rw [Finset.sum_comm]
        refine ⟨fun hi k => ?_, fun ha k => ?_⟩
        · simp only [sumT, hi, if_true, fun q => (t.const hi q).1, fun q => (t.const hi q).2]
          exact ⟨trivial, trivial⟩
        · simp only [sumT, ha, if_true]
          rw [hsum, hsum]
          simp only [fun q => (t.aff ha q).1, fun q => (t.aff ha q).2]
          exact ⟨trivial, trivial⟩

/-- A node without parents is the input. -/
theorem KOp.forward_nil (D : PertDomain X (Idx [n]) ℝ) (m : Mode) (eps : ℝ) (slope : Slope) (inp : Full X (Idx [n]) (Idx [n]) ℝ)
    {as : List (List ℕ)} {b : List ℕ} (o : KOp n as b) (h : as = []) (fs : HList (fun s => Full X (Idx [n]) (Idx s) ℝ) as) :
    (o.forward D m eps slope inp fs).toList m = inp.toList m := by
  cases o with
  | input => rfl
  | concat as j0 b e => subst h; exact j0.elim0
  | _ => simp at h

/-- The packed output of a node, from the packed outputs of its parents. -/
theorem KOp.call_nodes (D : PertDomain X (Idx [n]) ℝ) (m : Mode) (eps : ℝ) (slope : Slope) (inp : Full X (Idx [n]) (Idx [n]) ℝ)
    {sh : ℕ → List ℕ} (f : (v : ℕ) → Full X (Idx [n]) (Idx (sh v)) ℝ) (ps : List ℕ) {b : List ℕ} (o : KOp n (ps.map sh) b) :
    o.call D m eps slope inp (ps.flatMap fun w => (f w).toList m) =
      .ok ((o.forward D m eps slope inp (HList.ofNodes (fun w => (f w).carried m inp.x) ps)).toList m) := by
  have e := C03_split_concat m false (ps.map fun w => (f w).toList m) fun l hl => by
    obtain ⟨w, -, rfl⟩ := List.mem_map.1 hl
    exact toList_length m _
  rw [KOp.call, List.flatMap_def, e, readLists_nodes]
  rfl

end

/-! ### The loop -/

section
variable (parents : ℕ → List ℕ)

/-- Values of the nodes that satisfy given equations. -/
theorem exists_nodes {T : ℕ → Type*} [∀ v, Nonempty (T v)] (F : (v : ℕ) → ((w : ℕ) → T w) → T v)
    (hF : ∀ v g g', (∀ w ∈ parents v, g w = g' w) → F v g = F v g') {order : List ℕ} (ht : Topological parents order) :
    ∃ f : (v : ℕ) → T v, ∀ v ∈ order, f v = F v f := by
  have : ∀ l1 l2 : List ℕ, order = l1 ++ l2 → ∃ f : (v : ℕ) → T v, ∀ v ∈ l1, f v = F v f := by
    intro l1
    induction l1 using List.reverseRecOn with
    | nil => exact fun _ _ => ⟨fun v => Classical.arbitrary _, by simp⟩
    | append_singleton l v ih =>
      intro l2 e
      obtain ⟨f, hf⟩ := ih (v :: l2) (by simp [e])
      have hv : v ∉ l := by
        have := ht.1
        rw [e] at this
        simp only [List.append_assoc, List.singleton_append] at this
        exact fun h => (List.nodup_append.1 this).2.2 v h v (by simp) rfl
      have hpar : ∀ w ∈ l ++ [v], v ∉ parents w := by
        intro w hw hmem
        obtain ⟨a, c, e'⟩ := List.append_of_mem hw
        have h1 := ht.2 a w (c ++ l2) (by rw [e, e']; simp) v hmem
        rcases List.eq_nil_or_concat c with rfl | ⟨c', z, rfl⟩
        · have : a = l := (List.append_inj' e' rfl).1.symm
          exact hv (this ▸ h1)
        · have : l = a ++ w :: c' := (List.append_inj' (s₁ := l) (t₁ := [v]) (s₂ := a ++ w :: c') (t₂ := [z]) (by simpa using e') rfl).1
          exact hv (by rw [this]; simp [h1])
      refine ⟨Function.update f v (F v f), fun w hw => ?_⟩
      have hc : F w (Function.update f v (F v f)) = F w f := hF w _ _ fun u hu => by
        rw [Function.update_of_ne (by rintro rfl; exact hpar w hw hu)]
      rw [hc]
      by_cases hwv : w = v
      · subst hwv; simp
      · rw [Function.update_of_ne hwv]
        exact hf w (by simpa [hwv] using hw)
  exact this order [] (by simp)

variable {τ : Type*}

theorem convertLoopE_ok (convE : ℕ → List τ → Except PyErr (List τ)) (inp : List τ) (val : ℕ → List τ) (visit : List ℕ)
    (ht : Topological parents visit) (hin : ∀ l1 v l2, visit = l1 ++ v :: l2 → parents v = [] → ∀ w ∈ l1, parents w = [])
    (h0 : ∀ v ∈ visit, parents v = [] → val v = inp)
    (h1 : ∀ v ∈ visit, parents v ≠ [] → convE v ((parents v).flatMap val) = .ok (val v)) :
    ∀ (l2 l1 : List ℕ) (st : List τ × (ℕ → Option (List τ))), visit = l1 ++ l2 → (∀ v, st.2 v = if v ∈ l1 then some (val v) else none) →
      ((∀ w ∈ l1, parents w = []) → st.1 = inp) →
    ∃ st', convertLoopE parents convE l2 st = .ok st' ∧ ∀ v, st'.2 v = if v ∈ visit then some (val v) else none
  | [], l1, st, ho, h, _ => ⟨st, rfl, by simpa [ho] using h⟩
  | v :: t, l1, st, ho, h, hs => by
    have hpar := ht.2 l1 v t ho
    have hv1 : v ∉ l1 := by
      have := ht.1
      rw [ho, List.nodup_append] at this
      intro hmem
      exact this.2.2 v hmem v (by simp) rfl
    have hmem : v ∈ visit := by rw [ho]; simp
    have hst : st.2 v = none := by rw [h, if_neg hv1]
    have hup : ∀ w, (Function.update st.2 v (some (val v))) w = if w ∈ l1 ++ [v] then some (val w) else none := by
      intro w
      by_cases hw : w = v
      · subst hw; simp
      · rw [Function.update_of_ne hw, h w]; simp [hw]
    cases hps : parents v with
    | nil =>
      have hin1 : st.1 = inp := hs (hin l1 v t ho hps)
      have e := h0 v hmem hps
      obtain ⟨st', e', r⟩ := convertLoopE_ok convE inp val visit ht hin h0 h1 t (l1 ++ [v]) (st.1, Function.update st.2 v (some st.1)) (by simp [ho])
        (by rw [hin1, ← e]; exact hup) (fun _ => hin1)
      refine ⟨st', ?_, r⟩
      simp only [convertLoopE, convertNodeE, hst, hps, ne_eq, not_true_eq_false, if_false, Except.bind]
      exact e'
    | cons p ps =>
      have hne : parents v ≠ [] := by simp [hps]
      have hg := gatherParents_ok st.2 (parents v) fun q hq => by rw [h, if_pos (hpar q hq)]; simp
      have hval : ((parents v).flatMap fun q => (st.2 q).getD []) = (parents v).flatMap val := flatMap_congr_mem fun q hq => by
        rw [h, if_pos (hpar q hq)]; rfl
      obtain ⟨st', e', r⟩ := convertLoopE_ok convE inp val visit ht hin h0 h1 t (l1 ++ [v]) (val v, Function.update st.2 v (some (val v))) (by simp [ho])
        hup (fun h => absurd (h v (by simp)) hne)
      refine ⟨st', ?_, r⟩
      have hc := h1 v hmem hne
      rw [hval] at hg
      rw [hps] at hg hc
      simp only [convertLoopE, convertNodeE, hst, hps, ne_eq, not_true_eq_false, if_false, Except.bind, hg, hc, Except.map]
      exact e'

/-- The converted model, when the calls of the nodes succeed on the values of their parents. -/
theorem convertFunctionalE_ok (convE : ℕ → List τ → Except PyErr (List τ)) (M fuel : ℕ) (order : List ℕ) (ht : Topological parents order)
    (nameOf : ℕ → String) (o : ℕ) (ho : o ∈ order) (hlong : LongestFromInput parents o M) (hreach : ∀ v ∈ order, ∃ n, Walk parents v o n)
    (inp : List τ) (val : ℕ → List τ) (h0 : ∀ v ∈ order, parents v = [] → val v = inp)
    (h1 : ∀ v ∈ order, parents v ≠ [] → convE v ((parents v).flatMap val) = .ok (val v)) :
    convertFunctionalE parents M (fuel + 1) order nameOf [o] convE inp = .ok (val o) := by
  obtain ⟨d, e, hd, hg⟩ := depthDict_ok parents M fuel order ht
  have hdl := depth_longest parents M d ht hg
  have hvt := visitOrder_topological parents M d ht hd hg
  have hmem : ∀ v, v ∈ visitOrder d order ↔ v ∈ order := fun v => by rw [mem_visitOrder, hd]; tauto
  have hin : ∀ l1 v l2, visitOrder d order = l1 ++ v :: l2 → parents v = [] → ∀ w ∈ l1, parents w = [] := by
    intro l1 v l2 ev hpv w hw
    by_contra hne
    have hwo : w ∈ order := (hmem w).mp (by rw [ev]; simp [hw])
    have hvo : v ∈ order := (hmem v).mp (by rw [ev]; simp)
    have hs := visitOrder_sorted d order
    rw [ev, List.pairwise_append] at hs
    have hdv : d v = some (M : ℤ) := (hg v hvo).1 hpv
    obtain ⟨k, hk, hmin⟩ := (hg w hwo).2 hne
    have h1 := hs.2.2 w hw v (by simp) k M hk hdv
    obtain ⟨p, hp, hpk⟩ := hmin.2
    obtain ⟨n, en, -⟩ := hdl p (topological_parent_mem parents ht hwo hp)
    rw [hpk] at en
    have := Option.some.inj en
    omega
  obtain ⟨st, e2, h⟩ := convertLoopE_ok parents convE inp val (visitOrder d order) hvt hin (fun v hv => h0 v ((hmem v).1 hv))
    (fun v hv => h1 v ((hmem v).1 hv)) (visitOrder d order) [] (inp, fun _ => none) rfl (by simp) (fun _ => rfl)
  have hz := nodesAt_zero parents M d order ht.1 o ho hlong hreach hdl
  have ho' : st.2 o = some (val o) := by rw [h, if_pos ((hmem o).mpr ho)]
  simp only [convertFunctionalE, e, Except.bind, e2, collectOutputs, hz, List.map_cons, List.map_nil, List.flatMap_cons, List.flatMap_nil,
    List.append_nil, List.filter_cons, decide_true, if_true, List.filter_nil]
  rw [gatherParents_ok st.2 [o] (by simp [ho'])]
  simp [ho']

end

end Decomon
