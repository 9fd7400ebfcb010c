import Verif.Lemmas.CrownGraph
import Verif.Lemmas.Fold
import Verif.Lemmas.Slack
import Verif.SpecUnfold

/-! Helper lemmas for the reading of a graph as an expression: what a layer computes only depends on the tensors of the mode. -/

namespace Decomon

section
variable {X ι κ κ' : Type} {D : PertDomain X ι ℝ} {m : Mode}

/-- Tensors that are the same by computation, in a given mode. -/
macro "agree_rfl" : tactic => `(tactic| (constructor <;> first | rfl | (intro h; first | rfl | cases h)))

theorem agree_carried (f : Full X ι κ ℝ) (x0 : X) (h : f.x = x0) : Agree m (f.carried m x0) f := by
  subst h
  cases m <;> agree_rfl

theorem Agree.carried_eq {f g : Full X ι κ ℝ} (h : Agree m f g) : f.carried m f.x = g.carried m g.x := by
  obtain ⟨h1, h2, h3, h4, h5, h6, h7⟩ := h
  cases m with
  | ibp => simp [Full.carried, h1, h2 rfl, h3 rfl, getIbp, getAffine]
  | affine => simp [Full.carried, h1, h4 rfl, h5 rfl, h6 rfl, h7 rfl, getIbp, getAffine]
  | hybrid => simp [Full.carried, h1, h2 rfl, h3 rfl, h4 rfl, h5 rfl, h6 rfl, h7 rfl, getIbp, getAffine]

theorem Agree.map {F : Full X ι κ ℝ → Full X ι κ' ℝ} (hF : ∀ f, Agree m (F f) (F (f.carried m f.x))) {f g : Full X ι κ ℝ} (h : Agree m f g) :
    Agree m (F f) (F g) := (hF f).trans (by rw [h.carried_eq]; exact (hF g).symm)

theorem Agree.map_eq {τ : Type*} {F : Full X ι κ ℝ → τ} (hF : ∀ f, F f = F (f.carried m f.x)) {f g : Full X ι κ ℝ} (h : Agree m f g) :
    F f = F g := (hF f).trans (by rw [h.carried_eq]; exact (hF g).symm)

theorem Lay.forward_agree [Fintype κ] (eps : ℝ) (slope : Slope) (l : Lay ℝ κ κ') {f g : Full X ι κ ℝ} (h : Agree m f g) :
    Agree m (l.forward D m eps slope f) (l.forward D m eps slope g) := by
  cases l with
  | skip => exact h
  | dense kernel bias =>
    refine Agree.map (F := denseT D m false kernel bias) (fun f => ?_) h
    cases m <;> agree_rfl
  | linear L kernel bias =>
    refine Agree.map (F := linearLayerT D m false L kernel bias) (fun f => ?_) h
    cases m <;> agree_rfl
  | relu gf gb =>
    refine Agree.map (F := reluT D m false eps slope gf) (fun f => ?_) h
    cases m <;> agree_rfl
  | batchNorm gamma beta mean sd =>
    refine Agree.map (F := batchNormT D m gamma beta mean sd) (fun f => ?_) h
    cases m <;> agree_rfl
  | reshape e =>
    refine Agree.map (F := reindexT D m false e) (fun f => ?_) h
    cases m <;> agree_rfl

theorem Lay.backward_agree [Fintype ι] [DecidableEq ι] [DecidableEq κ] (eps : ℝ) (slope : Slope) (l : Lay ℝ κ κ') {f g : Full X ι κ ℝ} (h : Agree m f g) :
    l.backward D m eps slope f = l.backward D m eps slope g := by
  cases l with
  | relu gf gb =>
    refine Agree.map_eq (F := backwardRelu D m eps slope gb) (fun f => ?_) h
    cases m <;> rfl
  | _ => rfl

theorem Agree.map₂ {F : Full X ι κ ℝ → Full X ι κ ℝ → Full X ι κ' ℝ}
    (hF : ∀ f f', Agree m (F f f') (F (f.carried m f.x) (f'.carried m f'.x))) {f g f' g' : Full X ι κ ℝ} (h : Agree m f g) (h' : Agree m f' g') :
    Agree m (F f f') (F g g') := (hF f f').trans (by rw [h.carried_eq, h'.carried_eq]; exact (hF g g').symm)

theorem addT_agree {f g f' g' : Full X ι κ ℝ} (h : Agree m f g) (h' : Agree m f' g') : Agree m (addT D m f f') (addT D m g g') :=
  Agree.map₂ (F := addT D m) (fun f f' => by cases m <;> agree_rfl) h h'

theorem minusT_agree {f g : Full X ι κ ℝ} (h : Agree m f g) : Agree m (minusT D m f) (minusT D m g) :=
  Agree.map (F := minusT D m) (fun f => by cases m <;> agree_rfl) h

theorem subtractT_agree {f g f' g' : Full X ι κ ℝ} (h : Agree m f g) (h' : Agree m f' g') : Agree m (subtractT D m f f') (subtractT D m g g') :=
  addT_agree h (minusT_agree h')

theorem reluT_agree (eps : ℝ) (slope : Slope) (gamma : κ → ℝ) {f g : Full X ι κ ℝ} (h : Agree m f g) :
    Agree m (reluT D m false eps slope gamma f) (reluT D m false eps slope gamma g) :=
  Agree.map (F := reluT D m false eps slope gamma) (fun f => by cases m <;> agree_rfl) h

theorem maximumT_agree (eps : ℝ) (gamma : κ → ℝ) {f g f' g' : Full X ι κ ℝ} (h : Agree m f g) (h' : Agree m f' g') :
    Agree m (maximumT D m false eps gamma f f') (maximumT D m false eps gamma g g') :=
  addT_agree (reluT_agree eps .vSlope gamma (subtractT_agree h' h)) h

theorem MergeOp.forward_agree (eps : ℝ) (op : MergeOp) {f g f' g' : Full X ι κ ℝ} (h : Agree m f g) (h' : Agree m f' g') :
    Agree m (op.forward D m eps f f') (op.forward D m eps g g') := by
  cases op with
  | add => exact Agree.map₂ (F := fun f f' => addLayerT D m f [f']) (fun f f' => by cases m <;> agree_rfl) h h'
  | average => exact Agree.map₂ (F := fun f f' => averageLayerT D m f [f']) (fun f f' => by cases m <;> agree_rfl) h h'
  | multiply => exact Agree.map₂ (F := fun f f' => multiplyT D m f f') (fun f f' => by cases m <;> agree_rfl) h h'
  | subtract => exact subtractT_agree h h'
  | maximum => exact maximumT_agree eps _ h h'
  | minimum => exact minusT_agree (maximumT_agree eps _ (minusT_agree h) (minusT_agree h'))

theorem convert2Mode_agree {mTo : Mode} (hm : m ≠ .ibp ∨ mTo = .ibp) {s : List ℕ} {f g : Full X ι (Idx s) ℝ} (h : Agree m f g) :
    (convert2Mode D m mTo f).toList mTo = (convert2Mode D m mTo g).toList mTo := by
  refine Agree.map_eq (F := fun f => (convert2Mode D m mTo f).toList mTo) (fun f => ?_) h
  cases m <;> cases mTo <;> first | rfl | (exfalso; simp at hm)

end

section
variable {X : Type} {n : ℕ}

theorem NaryOp.forwardIn_one {ι κ : Type} (D : PertDomain X ι ℝ) (m : Mode) (eps : ℝ) {r : ℕ} (h : r = 1) (op : NaryOp) (f : Full X ι κ ℝ)
    (g : Fin r → Full X ι κ ℝ) : op.forwardIn D m eps f (List.ofFn g) = op.two.forward D m eps f (g ⟨0, by omega⟩) := by
  subst h
  cases op <;> simp [NaryOp.forwardIn, NaryOp.two, MergeOp.forward, List.ofFn_succ]

theorem NaryOp.eval_one {r : ℕ} (h : r = 1) (op : NaryOp) (a : ℝ) (b : Fin r → ℝ) : op.eval a b = op.two.eval a (b ⟨0, by omega⟩) := by
  subst h
  cases op <;> simp [NaryOp.eval, NaryOp.two, MergeOp.eval, Finset.univ_unique, Finset.fold_singleton, max_comm, min_comm]
  norm_num

theorem KOp.isNet_exists {as : List (List ℕ)} {b : List ℕ} (o : KOp n as b) (h : o.InNet) (Ns : HList (fun s => Net ℝ (Idx [n]) (Idx s)) as) :
    ∃ N, o.IsNet Ns N := by
  cases o with
  | input => exact ⟨_, rfl⟩
  | layer l =>
    cases l with
    | lay l => cases Ns; exact ⟨_, rfl⟩
    | _ => exact h.elim
  | merge op a r => cases Ns; exact ⟨_, h, rfl⟩
  | subtract a => cases Ns with | cons N0 t => cases t; exact ⟨_, rfl⟩
  | _ => exact h.elim

/-- What a node computes from tensors that agree with those of the expressions of its parents agrees with those of its expression. -/
theorem KOp.forward_agree (D : PertDomain X (Idx [n]) ℝ) (m : Mode) (eps : ℝ) (slope : Slope) (inp : Full X (Idx [n]) (Idx [n]) ℝ)
    {as : List (List ℕ)} {b : List ℕ} (o : KOp n as b) (fs : HList (fun s => Full X (Idx [n]) (Idx s) ℝ) as)
    (Ns : HList (fun s => Net ℝ (Idx [n]) (Idx s)) as) (N : Net ℝ (Idx [n]) (Idx b)) (hN : o.IsNet Ns N)
    (h : HAll (fun _ f N => Agree m f (N.forward D m eps slope inp)) fs Ns) :
    Agree m (o.forward D m eps slope inp fs) (N.forward D m eps slope inp) := by
  cases o with
  | input => obtain rfl := hN; exact .rfl'
  | layer l =>
    cases l with
    | lay l =>
      cases h with
      | cons h _ => obtain rfl := hN; exact l.forward_agree eps slope h
    | _ => cases h; exact hN.elim
  | merge op a r =>
    cases h with
    | cons h ht =>
      obtain ⟨hr, rfl⟩ := hN
      simp only [KOp.forward]
      rw [op.forwardIn_one D m eps hr]
      exact MergeOp.forward_agree eps op.two h (HAll.rep _ _ _ ht _)
  | subtract a =>
    cases h with
    | cons h ht =>
      cases ht with
      | cons h' _ => obtain rfl := hN; exact subtractT_agree h h'
  | concat as j0 b e => exact hN.elim
  | dot e0 e1 e => cases h; exact hN.elim

theorem KOp.eval_isNet (p : Idx [n] → ℝ) {as : List (List ℕ)} {b : List ℕ} (o : KOp n as b) (ys : HList (fun s => Idx s → ℝ) as)
    (Ns : HList (fun s => Net ℝ (Idx [n]) (Idx s)) as) (N : Net ℝ (Idx [n]) (Idx b)) (hN : o.IsNet Ns N)
    (h : HAll (fun _ y N => y = N.eval p) ys Ns) : o.eval p ys = N.eval p := by
  cases o with
  | input => obtain rfl := hN; rfl
  | layer l =>
    cases l with
    | lay l =>
      cases h with
      | cons h _ => obtain rfl := hN; subst h; rfl
    | _ => cases h; exact hN.elim
  | merge op a r =>
    cases h with
    | cons h ht =>
      obtain ⟨hr, rfl⟩ := hN
      have h' := HAll.rep _ _ _ ht ⟨0, by omega⟩
      subst h
      funext k
      simp only [KOp.eval, Net.eval]
      rw [op.eval_one hr, h']
  | subtract a =>
    cases h with
    | cons h ht =>
      cases ht with
      | cons h' _ => obtain rfl := hN; subst h h'; rfl
  | concat as j0 b e => exact hN.elim
  | dot e0 e1 e => cases h; exact hN.elim

/-- The conditions on the layers pass to the expression. -/
theorem KOp.wf_isNet {as : List (List ℕ)} {b : List ℕ} (o : KOp n as b) {G : List ℕ → Type*} (ys : HList G as) (Ns : HList (fun s => Net ℝ (Idx [n]) (Idx s)) as)
    (N : Net ℝ (Idx [n]) (Idx b)) (hN : o.IsNet Ns N) :
    (o.WF → HAll (fun _ _ N => N.WF) ys Ns → N.WF) ∧ (o.NotMultiply → HAll (fun _ _ N => N.NoMultiply) ys Ns → N.NoMultiply) ∧
      (o.InChain → HAll (fun _ _ N => N.Chain) ys Ns → N.Chain) := by
  cases o with
  | input => obtain rfl := hN; exact ⟨fun _ _ => trivial, fun _ _ => trivial, fun _ _ => trivial⟩
  | layer l =>
    cases l with
    | lay l =>
      cases Ns
      obtain rfl := hN
      refine ⟨fun w h => ?_, fun _ h => ?_, fun _ h => ?_⟩
      · cases h with | cons h _ => exact ⟨h, w⟩
      · cases h with | cons h _ => exact h
      · cases h with | cons h _ => exact h
    | _ => cases Ns; exact hN.elim
  | merge op a r =>
    cases Ns
    obtain ⟨hr, rfl⟩ := hN
    refine ⟨fun w h => ?_, fun w h => ?_, fun w _ => w.elim⟩
    · cases h with | cons h ht => exact ⟨h, HAll.rep _ _ _ ht _⟩
    · cases h with
      | cons h ht =>
        refine ⟨?_, h, HAll.rep _ _ _ ht _⟩
        cases op <;> simp_all [NaryOp.two, KOp.NotMultiply]
  | subtract a =>
    cases Ns with
    | cons N0 t =>
      cases t
      obtain rfl := hN
      refine ⟨fun w h => ?_, fun w h => ?_, fun w _ => w.elim⟩
      · cases h with | cons h ht => cases ht with | cons h' _ => exact ⟨h, h'⟩
      · cases h with | cons h ht => cases ht with | cons h' _ => exact ⟨by decide, h, h'⟩
  | concat as j0 b e => exact hN.elim
  | dot e0 e1 e => cases Ns; exact hN.elim

end

end Decomon
