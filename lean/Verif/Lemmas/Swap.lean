import Verif.SpecBall
import Verif.Lemmas.Network

/-! The bounds depend on the domain only through the bounds that it gives to affine functions. -/

namespace Decomon

section Forward
variable {X Y ι κ κ' α : Type} [Field α] [LinearOrder α]

/-- The same bounds with another tensor `x`. -/
def Full.setX {X Y ι κ α : Type*} (f : Full X ι κ α) (y : Y) : Full Y ι κ α := ⟨y, f.uc, f.wu, f.bu, f.lc, f.wl, f.bl, f.h, f.g⟩

theorem setX_same {X Y ι κ α : Type*} (f : Full X ι κ α) (y : Y) : SameNumbers f (f.setX y) := ⟨rfl, rfl, rfl, rfl, rfl, rfl⟩

variable {D : PertDomain X ι α} {D' : PertDomain Y ι α} {x : X} {y : Y} (m : Mode) (hA : getAffine m = true → AffAgree D x D' y)
include hA

theorem tighten_setX (a b : Bool) (f : Full X ι κ α) (hx : f.x = x) :
    (f.setX y).tighten D' m a b = (f.tighten D m a b).setX y := by
  cases m
  · simp [Full.tighten]
  all_goals
    have h1 : ∀ w c, D'.getUpper y w c = D.getUpper f.x w c := fun w c => by rw [hx]; exact (hA rfl w c).1.symm
    have h2 : ∀ w c, D'.getLower y w c = D.getLower f.x w c := fun w c => by rw [hx]; exact (hA rfl w c).2.symm
    cases a <;> cases b <;> simp [Full.tighten, Full.setX, h1, h2]

theorem addT_setX (f0 f1 : Full X ι κ α) (h0 : f0.x = x) (h1 : f1.x = x) :
    addT D' m (f0.setX y) (f1.setX y) = (addT D m f0 f1).setX y := by
  unfold addT
  rw [tighten_setX m hA _ _ f0 h0, tighten_setX m hA _ _ f1 h1]
  rfl

theorem minusT_setX (f : Full X ι κ α) (h : f.x = x) : minusT D' m (f.setX y) = (minusT D m f).setX y := by
  unfold minusT
  rw [tighten_setX m hA _ _ f h]
  rfl

theorem reluT_setX (dc : Bool) (eps : α) (s : Slope) (g : κ → α) (f : Full X ι κ α) (h : f.x = x) :
    reluT D' m dc eps s g (f.setX y) = (reluT D m dc eps s g f).setX y := by
  unfold reluT
  rw [tighten_setX m hA _ _ f h]
  rfl

theorem maximumT_setX (dc : Bool) (eps : α) (g : κ → α) (f0 f1 : Full X ι κ α) (h0 : f0.x = x) (h1 : f1.x = x) :
    maximumT D' m dc eps g (f0.setX y) (f1.setX y) = (maximumT D m dc eps g f0 f1).setX y := by
  have e0 : (minusT D m f0).x = x := by simpa [minusT] using h0
  have e1 : (addT D m f1 (minusT D m f0)).x = x := by simpa [addT] using h1
  have e2 : (reluT D m dc eps .vSlope g (addT D m f1 (minusT D m f0))).x = x := by
    simpa only [reluT, tighten_x] using e1
  unfold maximumT subtractT
  dsimp only
  rw [minusT_setX m hA f0 h0, addT_setX m hA _ _ h1 e0, reluT_setX m hA dc eps _ g _ e1, addT_setX m hA _ _ e2 h0]

theorem multiplyT_setX (f0 f1 : Full X ι κ α) (h0 : f0.x = x) (h1 : f1.x = x) :
    multiplyT D' m (f0.setX y) (f1.setX y) = (multiplyT D m f0 f1).setX y := by
  unfold multiplyT
  rw [tighten_setX m hA _ _ f0 h0, tighten_setX m hA _ _ f1 h1]
  rfl

theorem Lay.forward_setX [Fintype κ] (eps : α) (s : Slope) (l : Lay α κ κ') (f : Full X ι κ α) (h : f.x = x) :
    l.forward D' m eps s (f.setX y) = (l.forward D m eps s f).setX y := by
  cases l with
  | dense kernel bias =>
    simp only [Lay.forward, denseT]
    rw [tighten_setX m hA _ _ f h]
    rfl
  | linear L kernel bias =>
    simp only [Lay.forward, linearLayerT]
    rw [tighten_setX m hA _ _ f h]
    rfl
  | relu gf gb => exact reluT_setX m hA _ eps s gf f h
  | batchNorm gamma beta mean sd =>
    simp only [Lay.forward, batchNormT]
    rw [tighten_setX m hA _ _ f h]
    rfl
  | reshape e =>
    simp only [Lay.forward, reindexT]
    rw [tighten_setX m hA _ _ f h]
    rfl
  | skip => rfl

theorem MergeOp.forward_setX (eps : α) (op : MergeOp) (f0 f1 : Full X ι κ α) (h0 : f0.x = x) (h1 : f1.x = x) :
    op.forward D' m eps (f0.setX y) (f1.setX y) = (op.forward D m eps f0 f1).setX y := by
  have n0 : (minusT D m f0).x = x := by simpa [minusT] using h0
  have n1 : (minusT D m f1).x = x := by simpa [minusT] using h1
  cases op with
  | add =>
    simp only [MergeOp.forward, addLayerT, List.map_cons, List.map_nil]
    rw [tighten_setX m hA _ _ f0 h0, tighten_setX m hA _ _ f1 h1]
    rfl
  | average =>
    simp only [MergeOp.forward, averageLayerT, List.map_cons, List.map_nil]
    rw [tighten_setX m hA _ _ f0 h0, tighten_setX m hA _ _ f1 h1]
    rfl
  | subtract =>
    simp only [MergeOp.forward, subtractT]
    rw [minusT_setX m hA f1 h1, addT_setX m hA _ _ h0 n1]
  | maximum => exact maximumT_setX m hA _ eps _ f0 f1 h0 h1
  | minimum =>
    simp only [MergeOp.forward, minimumLayerT, maximumLayerT, List.map_cons, List.map_nil, List.foldl_cons, List.foldl_nil]
    rw [minusT_setX m hA f0 h0, minusT_setX m hA f1 h1, maximumT_setX m hA _ eps _ _ _ n0 n1, minusT_setX m hA]
    rw [maximumT_x]
    exact n1
  | multiply => exact multiplyT_setX m hA f0 f1 h0 h1

theorem Net.forward_setX (eps : α) (s : Slope) (inp : Full X ι ι α) (h : inp.x = x) {κ : Type} (n : Net α ι κ) :
    n.forward D' m eps s (inp.setX y) = (n.forward D m eps s inp).setX y := by
  induction n with
  | input => rfl
  | layer n l ih =>
    simp only [Net.forward]
    rw [ih, Lay.forward_setX m hA eps s l _ ((Net.forward_x ..).trans h)]
  | merge op n0 n1 ih0 ih1 =>
    simp only [Net.forward]
    rw [ih0, ih1, MergeOp.forward_setX m hA eps op _ _ ((Net.forward_x ..).trans h) ((Net.forward_x ..).trans h)]

end Forward

section Crown
variable {X Y ι κ κ' ν α : Type} [Fintype ι] [DecidableEq ι] [Field α] [LinearOrder α]
variable {D : PertDomain X ι α} {D' : PertDomain Y ι α} {x : X} {y : Y} (m : Mode) (hA : getAffine m = true → AffAgree D x D' y)
include hA

theorem Lay.backward_setX [DecidableEq κ] (eps : α) (s : Slope) (l : Lay α κ κ') (f : Full X ι κ α) (h : f.x = x) :
    l.backward D' m eps s (f.setX y) = l.backward D m eps s f := by
  cases l with
  | relu gf gb =>
    simp only [Lay.backward, backwardRelu]
    rw [tighten_setX m hA _ _ f h]
    rfl
  | _ => rfl

theorem convert_setX (stack : (ι → α) → (ι → α) → X) (stack' : (ι → α) → (ι → α) → Y) (hm : m ≠ .ibp) (inp : Full X ι ι α)
    (h : inp.x = x) (b : Back ι ν α) :
    convert2BackwardMode D' stack' m (inp.setX y) b = (convert2BackwardMode D stack m inp b).setX y := by
  have ha : getAffine m = true := by cases m <;> first | rfl | exact absurd rfl hm
  have h1 : ∀ w c, D'.getUpper y w c = D.getUpper inp.x w c := fun w c => by rw [h]; exact (hA ha w c).1.symm
  have h2 : ∀ w c, D'.getLower y w c = D.getLower inp.x w c := fun w c => by rw [h]; exact (hA ha w c).2.symm
  simp [convert2BackwardMode, Full.setX, hm, h1, h2]

theorem CrownCfg.node_setX (stack : (ι → α) → (ι → α) → X) (stack' : (ι → α) → (ι → α) → Y) (hm : m ≠ .ibp) (eps : α) (s : Slope)
    (uf : Bool) (inp : Full X ι ι α) (h : inp.x = x) {κ : Type} (n : Net α ι κ) :
    (⟨D', stack', m, eps, s, uf, inp.setX y⟩ : CrownCfg Y ι α).node n = (⟨D, stack, m, eps, s, uf, inp⟩ : CrownCfg X ι α).node n ∧
    (⟨D', stack', m, eps, s, uf, inp.setX y⟩ : CrownCfg Y ι α).childInput n ((⟨D', stack', m, eps, s, uf, inp.setX y⟩ : CrownCfg Y ι α).node n) =
      ((⟨D, stack, m, eps, s, uf, inp⟩ : CrownCfg X ι α).childInput n ((⟨D, stack, m, eps, s, uf, inp⟩ : CrownCfg X ι α).node n)).map
        (Full.setX · y) ∧
    ∀ f, (⟨D, stack, m, eps, s, uf, inp⟩ : CrownCfg X ι α).childInput n ((⟨D, stack, m, eps, s, uf, inp⟩ : CrownCfg X ι α).node n) = .ok f →
      f.x = x := by
  have child : ∀ {κ : Type} (n : Net α ι κ), (⟨D', stack', m, eps, s, uf, inp.setX y⟩ : CrownCfg Y ι α).node n =
      (⟨D, stack, m, eps, s, uf, inp⟩ : CrownCfg X ι α).node n →
      (⟨D', stack', m, eps, s, uf, inp.setX y⟩ : CrownCfg Y ι α).childInput n ((⟨D', stack', m, eps, s, uf, inp.setX y⟩ : CrownCfg Y ι α).node n) =
      ((⟨D, stack, m, eps, s, uf, inp⟩ : CrownCfg X ι α).childInput n ((⟨D, stack, m, eps, s, uf, inp⟩ : CrownCfg X ι α).node n)).map
        (Full.setX · y) ∧
      ∀ f, (⟨D, stack, m, eps, s, uf, inp⟩ : CrownCfg X ι α).childInput n ((⟨D, stack, m, eps, s, uf, inp⟩ : CrownCfg X ι α).node n) = .ok f →
        f.x = x := by
    intro κ n hn
    rw [hn]
    cases uf with
    | true =>
      refine ⟨?_, fun f hf => ?_⟩
      · simp only [CrownCfg.childInput, if_true]
        rw [Net.forward_setX m hA eps s inp h n]
        rfl
      · simp only [CrownCfg.childInput, if_true, Except.ok.injEq] at hf
        rw [← hf, Net.forward_x]
        exact h
    | false =>
      simp only [CrownCfg.childInput, Bool.false_eq_true, if_false]
      cases (CrownCfg.node (⟨D, stack, m, eps, s, false, inp⟩ : CrownCfg X ι α) n).first with
      | error e => exact ⟨rfl, fun f hf => nomatch hf⟩
      | ok b =>
        refine ⟨congrArg Except.ok (convert_setX m hA stack stack' hm inp h b), fun f hf => ?_⟩
        simp only [Except.map, Except.ok.injEq] at hf
        rw [← hf]
        simpa [convert2BackwardMode, hm] using h
  suffices hs : (⟨D', stack', m, eps, s, uf, inp.setX y⟩ : CrownCfg Y ι α).node n = (⟨D, stack, m, eps, s, uf, inp⟩ : CrownCfg X ι α).node n by
    exact ⟨hs, child n hs⟩
  induction n with
  | input => rfl
  | layer n l ih =>
    obtain ⟨c1, c2⟩ := child n ih
    simp only [CrownCfg.node]
    rw [c1, ih]
    cases hc : CrownCfg.childInput (⟨D, stack, m, eps, s, uf, inp⟩ : CrownCfg X ι α) n
      (CrownCfg.node (⟨D, stack, m, eps, s, uf, inp⟩ : CrownCfg X ι α) n) with
    | error e => rfl
    | ok f =>
      simp only [Except.map]
      rw [Lay.backward_setX m hA eps s l f (c2 f hc)]
  | merge op n0 n1 ih0 ih1 =>
    obtain ⟨a1, -⟩ := child n0 ih0
    obtain ⟨b1, -⟩ := child n1 ih1
    simp only [CrownCfg.node]
    rw [a1, b1]
    cases CrownCfg.childInput (⟨D, stack, m, eps, s, uf, inp⟩ : CrownCfg X ι α) n0
      (CrownCfg.node (⟨D, stack, m, eps, s, uf, inp⟩ : CrownCfg X ι α) n0) <;>
    cases CrownCfg.childInput (⟨D, stack, m, eps, s, uf, inp⟩ : CrownCfg X ι α) n1
      (CrownCfg.node (⟨D, stack, m, eps, s, uf, inp⟩ : CrownCfg X ι α) n1) <;> rfl

theorem CrownCfg.model_setX (stack : (ι → α) → (ι → α) → X) (stack' : (ι → α) → (ι → α) → Y) (hm : m ≠ .ibp) (eps : α) (s : Slope)
    (uf : Bool) (inp : Full X ι ι α) (h : inp.x = x) {κ : Type} (n : Net α ι κ) :
    (⟨D', stack', m, eps, s, uf, inp.setX y⟩ : CrownCfg Y ι α).model n =
      ((⟨D, stack, m, eps, s, uf, inp⟩ : CrownCfg X ι α).model n).map (Full.setX · y) := by
  simp only [CrownCfg.model]
  rw [(CrownCfg.node_setX m hA stack stack' hm eps s uf inp h n).1]
  cases (CrownCfg.node (⟨D, stack, m, eps, s, uf, inp⟩ : CrownCfg X ι α) n).first with
  | error e => rfl
  | ok b => exact congrArg Except.ok (convert_setX m hA stack stack' hm inp h b)

theorem CrownCfg.modelBack_setX (stack : (ι → α) → (ι → α) → X) (stack' : (ι → α) → (ι → α) → Y) (hm : m ≠ .ibp) (eps : α) (s : Slope)
    (uf : Bool) (inp : Full X ι ι α) (h : inp.x = x) {κ : Type} (n : Net α ι κ) (C : κ → ν → α) :
    (⟨D', stack', m, eps, s, uf, inp.setX y⟩ : CrownCfg Y ι α).modelBack n C =
      ((⟨D, stack, m, eps, s, uf, inp⟩ : CrownCfg X ι α).modelBack n C).map (Full.setX · y) := by
  simp only [CrownCfg.modelBack]
  rw [(CrownCfg.node_setX m hA stack stack' hm eps s uf inp h n).1]
  cases (CrownCfg.node (⟨D, stack, m, eps, s, uf, inp⟩ : CrownCfg X ι α) n).next ν ⟨C, fun _ => 0, C, fun _ => 0⟩ with
  | error e => rfl
  | ok b => exact congrArg Except.ok (convert_setX m hA stack stack' hm inp h b)

end Crown

end Decomon
