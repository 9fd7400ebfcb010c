import Verif.Lemmas.Pipeline
import Verif.Props.Pipeline
import Verif.Props.IbpNet

/-! Interval bounds on a graph: they follow the bounds of the parents monotonically and continuously. -/

namespace Decomon

section
variable {X X' : Type} {n : ℕ}

/-- The node computes no product of two of its inputs. -/
def KOp.NoProduct : {as : List (List ℕ)} → {b : List ℕ} → KOp n as b → Prop
  | _, _, .merge .multiply _ _ => False
  | _, _, @KOp.dot _ _ _ _ _ _ _ _ _ _ _ => False
  | _, _, _ => True

/-- What the monotonicity of a node asks of a parent: its bounds are inside those of the other mode and, if there are products, they hold
somewhere. -/
def TightOn (Q : Prop) (D : PertDomain X (Idx [n]) ℝ) (m : Mode) (R : Set (Idx [n] → ℝ)) (p : Idx [n] → ℝ) (s : List ℕ)
    (f : Full X (Idx [n]) (Idx s) ℝ) (g : Full X' (Idx [n]) (Idx s) ℝ) : Prop := Tighter f g ∧ (Q → D.Sound f.x R ∧ ∃ y, Valid m false f p y)

theorem SmoothAct.forwardIn_tighter {ι κ : Type} [Fintype ι] {D : PertDomain X ι ℝ} {m : Mode} (hm : getIbp m = true) {D' : PertDomain X' ι ℝ}
    (eps : ℝ) (s s' : Slope) (a : SmoothAct) {f : Full X ι κ ℝ} {g : Full X' ι κ ℝ} (h : Tighter f g) :
    Tighter (a.forwardIn D m eps s f) (a.forwardIn D' .ibp eps s' g) := by
  intro k
  obtain ⟨c, e1, e2⟩ := a.forwardIn_const D m hm eps s f k
  obtain ⟨c', e1', e2'⟩ := a.forwardIn_const D' .ibp rfl eps s' g k
  have t := tighter_tighten (D := D) hm c true (D' := D') c' true h k
  rw [e1, e2, e1', e2']
  exact ⟨a.mono t.1, a.mono t.2⟩

theorem Step.forward_tighter {ι : Type} [Fintype ι] {D : PertDomain X ι ℝ} {m : Mode} (hm : getIbp m = true) {D' : PertDomain X' ι ℝ}
    (eps : ℝ) (s s' : Slope) {a b : List ℕ} (l : Step a b) (hl : l.WF) {f : Full X ι (Idx a) ℝ} {g : Full X' ι (Idx a) ℝ} (h : Tighter f g) :
    Tighter (l.forward D m eps s f) (l.forward D' .ibp eps s' g) := by
  cases l with
  | lay l => exact tighter_layer hm eps s s' l hl h
  | act a => exact a.forwardIn_tighter hm eps s s' h
  | pool win hw =>
    intro k
    have t := tighter_tighten (D := D) hm true true (D' := D') true true h
    rw [tighten_ibp_eq] at t
    simp only [Step.forward, maxPoolFastT, tighten_ibp_eq, maxPool]
    exact ⟨Finset.sup'_mono_fun fun j _ => (t j).1, Finset.sup'_mono_fun fun j _ => (t j).2⟩

theorem NaryOp.forwardIn_ibp {ι κ : Type} (D : PertDomain X ι ℝ) (eps : ℝ) (op : NaryOp) (f : Full X ι κ ℝ) (l : List (Full X ι κ ℝ)) :
    op.forwardIn D .ibp eps f l = op.forward D eps f l := by cases op <;> rfl

theorem dot_tighter {ι κ0 κ1 o0 o1 nn : Type} [Fintype ι] [Fintype nn] {D : PertDomain X ι ℝ} {m : Mode} (hm : getIbp m = true)
    {D' : PertDomain X' ι ℝ} (e0 : nn × o0 → κ0) (e1 : nn × o1 → κ1) {f0 : Full X ι κ0 ℝ} {f1 : Full X ι κ1 ℝ} {g0 : Full X' ι κ0 ℝ}
    {g1 : Full X' ι κ1 ℝ} (h0 : Tighter f0 g0) (h1 : Tighter f1 g1) (R : Set (ι → ℝ)) (p : ι → ℝ) (hp : p ∈ R) (d0 : D.Sound f0.x R)
    (d1 : D.Sound f1.x R) (y0 : κ0 → ℝ) (y1 : κ1 → ℝ) (v0 : Valid m false f0 p y0) (v1 : Valid m false f1 p y1) :
    Tighter (dotLayerT D m e0 e1 f0 f1) (dotLayerT D' .ibp e0 e1 g0 g1) := by
  intro o
  have hib : getIbp .ibp = true := rfl
  have w0 := valid_reindex_raw m false (fun q : (o0 × o1) × nn => e0 (q.2, q.1.1)) f0 p _ v0
  have w1 := valid_reindex_raw m false (fun q : (o0 × o1) × nn => e1 (q.2, q.1.2)) f1 p _ v1
  have c0 := tighten_const D m false _ R (by simpa [Full.reindex] using d0) p hp _ w0
  have c1 := tighten_const D m false _ R (by simpa [Full.reindex] using d1) p hp _ w1
  have mm := tighter_multiply (D := D) hm (D' := D') (f0 := f0.reindex fun q : (o0 × o1) × nn => e0 (q.2, q.1.1)) (f1 := f1.reindex fun q : (o0 × o1) × nn => e1 (q.2, q.1.2))
    (g0 := g0.reindex fun q : (o0 × o1) × nn => e0 (q.2, q.1.1)) (g1 := g1.reindex fun q : (o0 × o1) × nn => e1 (q.2, q.1.2)) (fun k => h0 _) (fun k => h1 _)
    (fun k => (c0 k).1.trans (c0 k).2) (fun k => (c1 k).1.trans (c1 k).2)
  have t := tighter_tighten (D := D) hm false true (D' := D') false true mm
  rw [tighten_ibp_eq] at t
  simp only [dotLayerT, sumT, hm, hib, if_true, tighten_ibp_eq]
  exact ⟨Finset.sum_le_sum fun _ _ => (t _).1, Finset.sum_le_sum fun _ _ => (t _).2⟩

theorem KOp.forward_tighter {D : PertDomain X (Idx [n]) ℝ} {m : Mode} (hm : getIbp m = true) {D' : PertDomain X' (Idx [n]) ℝ} (eps : ℝ)
    (s s' : Slope) {inp : Full X (Idx [n]) (Idx [n]) ℝ} {inp' : Full X' (Idx [n]) (Idx [n]) ℝ} (hi : Tighter inp inp') (R : Set (Idx [n] → ℝ))
    (p : Idx [n] → ℝ) (Q : Prop) (hp : Q → p ∈ R) {as : List (List ℕ)} {b : List ℕ} (o : KOp n as b) (ho : o.WF) (hQ : Q ∨ o.NoProduct)
    (fs : HList (fun s => Full X (Idx [n]) (Idx s) ℝ) as) (gs : HList (fun s => Full X' (Idx [n]) (Idx s) ℝ) as)
    (h : HAll (TightOn Q D m R p) fs gs) : Tighter (o.forward D m eps s inp fs) (o.forward D' .ibp eps s' inp' gs) := by
  have hib : getIbp .ibp = true := rfl
  cases o with
  | input => exact hi
  | layer l => cases h with | cons h _ => exact l.forward_tighter hm eps s s' ho h.1
  | merge op a r =>
    cases h with
    | @cons _ _ _ _ t u h ht =>
      by_cases hop : op = .multiply
      · subst hop
        have q : Q := hQ.resolve_right id
        obtain ⟨h1, h2⟩ := h
        obtain ⟨h2, y, h3⟩ := h2 q
        choose ys hys using fun i => ((ht.rep r _ _ i).2 q).2
        have := NaryOp.forwardIn_tighter hm (D := D) (D' := D') eps .multiply _ (t.rep r) _ (u.rep r) h1 (fun i => (ht.rep r _ _ i).1) R p (hp q) y ys h2
          (fun i => ((ht.rep r _ _ i).2 q).1) h3 hys
        rw [← NaryOp.forwardIn_ibp] at this
        exact this
      · have := NaryOp.forwardIn_tighter_sum hm (D := D) (D' := D') eps op _ (t.rep r) _ (u.rep r) h.1 (fun i => (ht.rep r _ _ i).1) hop
        rw [← NaryOp.forwardIn_ibp] at this
        exact this
  | subtract a => cases h with | cons h ht => cases ht with | cons h1 _ => exact tighter_add hm h.1 (tighter_minus hm h1.1)
  | concat as j0 b e =>
    intro k
    have t := tighter_tighten (D := D) hm false true (D' := D') false true (h.get (e k).1).1
    rw [tighten_ibp_eq] at t
    simp only [KOp.forward, Full.reindex, concatLayerT, hib, hm, if_true, tighten_ibp_eq]
    exact t _
  | dot e0 e1 e =>
    have q : Q := hQ.resolve_right id
    cases h with
    | cons h ht =>
      cases ht with
      | cons h' _ =>
        obtain ⟨h1, h2⟩ := h
        obtain ⟨h1', h2'⟩ := h'
        obtain ⟨h2, y, h3⟩ := h2 q
        obtain ⟨h2', y', h3'⟩ := h2' q
        exact fun k => dot_tighter hm e0 e1 h1 h1' R p (hp q) h2 h2' y y' h3 h3' (e k)

theorem carried_tighter {ι κ : Type} {m m' : Mode} (hm : getIbp m = true) (hm' : getIbp m' = true) {x : X} {x' : X'} {f : Full X ι κ ℝ} {g : Full X' ι κ ℝ}
    (h : Tighter f g) : Tighter (f.carried m x) (g.carried m' x') := by
  intro k
  simp only [Full.carried, hm, hm', if_true]
  exact h k

/-- The bounds of a graph against its interval bounds over a larger domain. -/
theorem bounds_tighter {D : PertDomain X (Idx [n]) ℝ} {m : Mode} (hm : getIbp m = true) {D' : PertDomain X' (Idx [n]) ℝ} (eps : ℝ) (he : 0 < eps)
    (s s' : Slope) {inp : Full X (Idx [n]) (Idx [n]) ℝ} {inp' : Full X' (Idx [n]) (Idx [n]) ℝ} (hi : Tighter inp inp') (R : Set (Idx [n] → ℝ))
    (hD : D.Sound inp.x R) (p : Idx [n] → ℝ) (G : KGraph n) (order : List ℕ)
    (ht : Topological G.parents order) (hG : ∀ v ∈ order, (G.op v).WF) (f : (v : ℕ) → Full X (Idx [n]) (Idx (G.sh v)) ℝ)
    (hf : G.IsBounds D m eps s inp order f)
    (hg : (p ∈ R ∧ Valid m false inp p p ∧ ∀ v ∈ order, (G.op v).Good D m eps (HList.ofNodes f (G.parents v))) ∨ ∀ v ∈ order, (G.op v).NoProduct)
    (g : (v : ℕ) → Full X' (Idx [n]) (Idx (G.sh v)) ℝ) (hg' : G.IsBounds D' .ibp eps s' inp' order g) :
    ∀ v ∈ order, Tighter (f v) (g v) := by
  obtain ⟨y, hy⟩ := (C131_value G order ht p).1
  have key : ∀ v ∈ order, v ∈ order ∧ Tighter (f v) (g v) := by
    refine topological_induction G.parents ht _ fun v hv ih => ⟨hv, ?_⟩
    have h := hAll_nodes (σ := List ℕ) (F := fun s => Full X (Idx [n]) (Idx s) ℝ) (G := fun s => Full X' (Idx [n]) (Idx s) ℝ) (sh := G.sh)
      (P := TightOn (p ∈ R ∧ Valid m false inp p p ∧ ∀ v ∈ order, (G.op v).Good D m eps (HList.ofNodes f (G.parents v))) D m R p) f g (G.parents v)
        fun w hw => ⟨(ih w hw).2, fun q => by
          have val := bounds_valid D m eps he s inp R hD G order ht hG f hf q.2.2 p q.1 q.2.1 y hy w (ih w hw).1
          exact ⟨by rw [val.1]; exact hD, _, val.2⟩⟩
    rw [hf v hv, hg' v hv]
    exact carried_tighter hm rfl ((G.op v).forward_tighter hm eps s s' hi R p _ (fun q => q.1) (hG v hv) (hg.imp_right fun h => h v hv) _ _ h)
  exact fun v hv => (key v hv).2

end

/-! ### Continuity -/

/-- A function of each element. -/
def HList.map {σ : Type} {F G : σ → Type*} (f : (s : σ) → F s → G s) : {l : List σ} → HList F l → HList G l
  | _, .nil => .nil
  | _, .cons a t => .cons (f _ a) (t.map f)

section
variable {σ : Type} {F G : σ → Type*} (f : (s : σ) → F s → G s)

theorem HList.map_get : {l : List σ} → (t : HList F l) → (j : Fin l.length) → (t.map f).get j = f _ (t.get j)
  | _, .cons _ _, ⟨0, _⟩ => rfl
  | _, .cons _ t, ⟨_ + 1, h⟩ => t.map_get ⟨_, Nat.lt_of_succ_lt_succ h⟩

theorem HList.map_rep {s : σ} : (r : ℕ) → (t : HList F (List.replicate r s)) → (i : Fin r) → (t.map f).rep r i = f _ (t.rep r i)
  | _ + 1, .cons _ _, ⟨0, _⟩ => rfl
  | r + 1, .cons _ t, ⟨_ + 1, h⟩ => HList.map_rep r t ⟨_, Nat.lt_of_succ_lt_succ h⟩

theorem HList.map_nodes {sh : ℕ → σ} (g : (v : ℕ) → F (sh v)) : ∀ l : List ℕ, (HList.ofNodes g l).map f = HList.ofNodes (fun v => f _ (g v)) l
  | [] => rfl
  | v :: t => by
    change HList.cons (f _ (g v)) ((HList.ofNodes g t).map f) = HList.cons (f _ (g v)) (HList.ofNodes _ t)
    rw [HList.map_nodes g t]

end

section
variable {X : Type} {n : ℕ} {T : Type} [TopologicalSpace T]

theorem SmoothAct.forwardIn_cont {ι κ : Type} (D : PertDomain X ι ℝ) (eps : ℝ) (s : Slope) (a : SmoothAct) (F : T → Full X ι κ ℝ) (h : ContFull F) :
    ContFull fun t => a.forwardIn D .ibp eps s (F t) := by
  intro k
  have e : ∀ t, (a.forwardIn D .ibp eps s (F t)).lc k = a.eval ((F t).lc k) ∧ (a.forwardIn D .ibp eps s (F t)).uc k = a.eval ((F t).uc k) := fun t => by
    obtain ⟨c, h1, h2⟩ := a.forwardIn_const D .ibp rfl eps s (F t) k
    rw [tighten_ibp_eq] at h1 h2
    exact ⟨h1, h2⟩
  simp only [(e _).1, (e _).2]
  exact ⟨a.cont.comp (h k).1, a.cont.comp (h k).2⟩

theorem Step.forward_cont {ι : Type} (D : PertDomain X ι ℝ) (eps : ℝ) (s : Slope) {a b : List ℕ} (l : Step a b) (F : T → Full X ι (Idx a) ℝ)
    (h : ContFull F) : ContFull fun t => l.forward D .ibp eps s (F t) := by
  cases l with
  | lay l => exact Lay.forward_cont D eps s l F h
  | act a => exact a.forwardIn_cont D eps s F h
  | pool win hw =>
    intro k
    simp only [Step.forward, maxPoolFastT, tighten_ibp_eq, maxPool]
    exact ⟨Continuous.finset_sup'_apply (hw k) fun j _ => (h j).1, Continuous.finset_sup'_apply (hw k) fun j _ => (h j).2⟩

theorem KOp.forward_cont (D : PertDomain X (Idx [n]) ℝ) (eps : ℝ) (s : Slope) (inp : T → Full X (Idx [n]) (Idx [n]) ℝ) (hi : ContFull inp)
    {as : List (List ℕ)} {b : List ℕ} (o : KOp n as b) (fs : HList (fun s => T → Full X (Idx [n]) (Idx s) ℝ) as)
    (h : HAll (fun _ F _ => ContFull F) fs fs) : ContFull fun t => o.forward D .ibp eps s (inp t) (fs.map fun _ F => F t) := by
  cases o with
  | input => exact hi
  | layer l => cases h with | cons h _ => exact l.forward_cont D eps s _ h
  | merge op a r =>
    cases h with
    | @cons _ _ _ _ t u h ht =>
      have := NaryOp.forward_cont D eps op _ (t.rep r) h fun i => HAll.rep r t t ht i
      have e : ∀ x, (t.map fun _ F => F x).rep r = fun i => t.rep r i x := fun x => funext (HList.map_rep _ r t)
      intro k
      simp only [KOp.forward, HList.map, e, NaryOp.forwardIn_ibp]
      exact this k
  | subtract a =>
    cases h with
    | cons h ht =>
      cases ht with
      | cons h1 _ =>
        intro k
        have f1 := (h k).1
        have f2 := (h k).2
        have g1 := (h1 k).1
        have g2 := (h1 k).2
        simp only [KOp.forward, HList.map, subtractT, addT, minusT, tighten_ibp_eq]
        constructor <;> fun_prop
  | concat as j0 b e =>
    intro k
    simp only [KOp.forward, Full.reindex, concatLayerT, getIbp, if_true, tighten_ibp_eq, HList.map_get]
    exact h.get (e k).1 (e k).2
  | @dot a0 a1 b o0 o1 nn _ e0 e1 e =>
    cases h with
    | @cons _ _ F0 _ _ _ h ht =>
      cases ht with
      | @cons _ _ F1 _ _ _ h1 _ =>
        intro k
        have m := cont_multiply D (fun t => (F0 t).reindex fun q : (o0 × o1) × nn => e0 (q.2, q.1.1))
          (fun t => (F1 t).reindex fun q : (o0 × o1) × nn => e1 (q.2, q.1.2)) (fun k => h _) (fun k => h1 _)
        have m1 := fun k => (m k).1
        have m2 := fun k => (m k).2
        simp only [KOp.forward, HList.map, Full.reindex, dotLayerT, sumT, getIbp, if_true, tighten_ibp_eq]
        simp only [Full.reindex] at m1 m2
        constructor <;> fun_prop

/-- The interval bounds of every node depend continuously on those of the inputs. -/
theorem bounds_cont (D : PertDomain X (Idx [n]) ℝ) (eps : ℝ) (s : Slope) (inp : T → Full X (Idx [n]) (Idx [n]) ℝ) (hi : ContFull inp)
    (G : KGraph n) (order : List ℕ) (ht : Topological G.parents order) (f : T → (v : ℕ) → Full X (Idx [n]) (Idx (G.sh v)) ℝ)
    (hf : ∀ t, G.IsBounds D .ibp eps s (inp t) order (f t)) : ∀ v ∈ order, ContFull fun t => f t v := by
  refine topological_induction G.parents ht _ fun v hv ih => ?_
  have h := hAll_nodes (σ := List ℕ) (F := fun s => T → Full X (Idx [n]) (Idx s) ℝ) (G := fun s => T → Full X (Idx [n]) (Idx s) ℝ) (sh := G.sh)
    (P := fun _ F _ => ContFull F) (fun v t => f t v) (fun v t => f t v) (G.parents v) ih
  have c := (G.op v).forward_cont D eps s inp hi _ h
  intro k
  have e : ∀ t, f t v = ((G.op v).forward D .ibp eps s (inp t)
      ((HList.ofNodes (F := fun s => T → Full X (Idx [n]) (Idx s) ℝ) (fun v t => f t v) (G.parents v)).map fun _ F => F t)).carried .ibp (inp t).x := fun t => by
    rw [HList.map_nodes]
    exact hf t v hv
  simp only [e, Full.carried, getIbp, if_true]
  exact c k

end

end Decomon
