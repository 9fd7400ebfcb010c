import Verif.SpecSlackGraph
import Verif.Lemmas.Slack
import Verif.Lemmas.Pipeline

/-!
The bounds of every node of a piecewise linear graph hold up to the error of `KGraph.IsGain`.
-/

namespace Decomon

/-- Three lists of node values, related entry by entry. -/
inductive HAll3 {σ : Type} {F G H : σ → Type*} (P : (s : σ) → F s → G s → H s → Prop) : {l : List σ} → HList F l → HList G l → HList H l → Prop
  | nil : HAll3 P .nil .nil .nil
  | cons {s : σ} {l : List σ} {a : F s} {b : G s} {c : H s} {t : HList F l} {u : HList G l} {w : HList H l} (h : P s a b c) (ht : HAll3 P t u w) :
      HAll3 P (.cons a t) (.cons b u) (.cons c w)

section HAll3
variable {σ : Type} {F G H : σ → Type*} {P : (s : σ) → F s → G s → H s → Prop}

theorem HAll3.get : {l : List σ} → {t : HList F l} → {u : HList G l} → {w : HList H l} → HAll3 P t u w → (j : Fin l.length) →
    P (l.get j) (t.get j) (u.get j) (w.get j)
  | _, _, _, _, .cons h _, ⟨0, _⟩ => h
  | _, _, _, _, .cons _ ht, ⟨_ + 1, h⟩ => ht.get ⟨_, Nat.lt_of_succ_lt_succ h⟩

theorem HAll3.rep {s : σ} : (r : ℕ) → (t : HList F (List.replicate r s)) → (u : HList G (List.replicate r s)) → (w : HList H (List.replicate r s)) →
    HAll3 P t u w → (i : Fin r) → P s (t.rep r i) (u.rep r i) (w.rep r i)
  | _ + 1, .cons _ _, .cons _ _, .cons _ _, .cons h _, ⟨0, _⟩ => h
  | r + 1, .cons _ t, .cons _ u, .cons _ w, .cons _ ht, ⟨_ + 1, h⟩ => HAll3.rep r t u w ht ⟨_, Nat.lt_of_succ_lt_succ h⟩

theorem hAll3_nodes {sh : ℕ → σ} (f : (v : ℕ) → F (sh v)) (g : (v : ℕ) → G (sh v)) (h : (v : ℕ) → H (sh v)) :
    ∀ l : List ℕ, (∀ w ∈ l, P _ (f w) (g w) (h w)) → HAll3 P (HList.ofNodes f l) (HList.ofNodes g l) (HList.ofNodes h l)
  | [], _ => .nil
  | w :: t, e => .cons (e w (by simp)) (hAll3_nodes f g h t fun v hv => e v (by simp [hv]))

end HAll3

section
variable {X ι κ : Type} [Fintype ι]

/-- The error of the fold of `Maximum`. -/
noncomputable def maxGain (a b : ℝ) : ℝ := 2 * (a + b) + 1 / 4 + a

theorem maxGain_nonneg {a b : ℝ} (ha : 0 ≤ a) (hb : 0 ≤ b) : 0 ≤ maxGain a b := by unfold maxGain; linarith

theorem foldl_maxGain_nonneg (l : List ℝ) (a : ℝ) (ha : 0 ≤ a) (hl : ∀ b ∈ l, 0 ≤ b) : 0 ≤ l.foldl maxGain a := by
  induction l generalizing a with
  | nil => exact ha
  | cons b t ih => exact ih _ (maxGain_nonneg ha (hl b (by simp))) fun c hc => hl c (by simp [hc])

/-- The tensors `f` of an input bound its value `z.1` up to the error `z.2`. -/
def InputNear (D : PertDomain X ι ℝ) (m : Mode) (eps : ℝ) (R : Set (ι → ℝ)) (p : ι → ℝ) (f : Full X ι κ ℝ) (z : (κ → ℝ) × (κ → ℝ)) : Prop :=
  D.Sound f.x R ∧ Near m f p z.1 (fun k => eps * z.2 k) ∧ ∀ k, 0 ≤ z.2 k

theorem near_addLayer (D : PertDomain X ι ℝ) (m : Mode) (eps : ℝ) (R : Set (ι → ℝ)) (p : ι → ℝ) (hp : p ∈ R) (f0 : Full X ι κ ℝ)
    (fs : List (Full X ι κ ℝ)) (z0 : (κ → ℝ) × (κ → ℝ)) (zs : List ((κ → ℝ) × (κ → ℝ))) (h0 : InputNear D m eps R p f0 z0)
    (h : List.Forall₂ (InputNear D m eps R p) fs zs) :
    Near m (addLayerT D m f0 fs) p (fun k => ((z0 :: zs).map fun z => z.1 k).sum) (fun k => eps * ((z0 :: zs).map fun z => z.2 k).sum) := by
  have h' : List.Forall₂ (InputNear D m eps R p) (f0 :: fs) (z0 :: zs) := .cons h0 h
  have key : ∀ (f : Full X ι κ ℝ) z, InputNear D m eps R p f z → Near m (f.tighten D m false true) p z.1 (fun k => eps * z.2 k) :=
    fun f z hf => (near_tighten D m false true f R hf.1 p hp _ _ hf.2.1).1
  have el : ∀ (k : κ) (l : List ((κ → ℝ) × (κ → ℝ))), (l.map fun z => z.1 k).sum + eps * (l.map fun z => z.2 k).sum =
      (l.map fun z => z.1 k + eps * z.2 k).sum := fun k l => by
    induction l with
    | nil => simp
    | cons z t ih => simp only [List.map_cons, List.sum_cons, ← ih]; ring
  have eu : ∀ (k : κ) (l : List ((κ → ℝ) × (κ → ℝ))), (l.map fun z => z.1 k).sum - eps * (l.map fun z => z.2 k).sum =
      (l.map fun z => z.1 k - eps * z.2 k).sum := fun k l => by
    induction l with
    | nil => simp
    | cons z t ih => simp only [List.map_cons, List.sum_cons, ← ih]; ring
  refine ⟨fun hi k => ?_, fun ha k => ?_⟩
  · refine ⟨sub_le_iff_le_add.2 ?_, sub_le_iff_le_add.1 ?_⟩
    · rw [el]
      simp only [addLayerT, hi, if_true, List.map_map]
      exact forall2_sum_le h' fun f z hf => by have := ((key f z hf).const hi k).1; simp only [Function.comp_apply]; linarith
    · rw [eu]
      simp only [addLayerT, hi, if_true, List.map_map]
      exact forall2_le_sum h' fun f z hf => by have := ((key f z hf).const hi k).2; simp only [Function.comp_apply]; linarith
  · refine ⟨sub_le_iff_le_add.2 ?_, sub_le_iff_le_add.1 ?_⟩
    · rw [el]
      simp only [addLayerT, ha, if_true, List.map_map, Function.comp_def]
      rw [affEval_list_sum]
      exact forall2_sum_le h' fun f z hf => by have := ((key f z hf).aff ha k).1; linarith
    · rw [eu]
      simp only [addLayerT, ha, if_true, List.map_map, Function.comp_def]
      rw [affEval_list_sum]
      exact forall2_le_sum h' fun f z hf => by have := ((key f z hf).aff ha k).2; linarith

theorem near_averageLayer (D : PertDomain X ι ℝ) (m : Mode) (eps : ℝ) (R : Set (ι → ℝ)) (p : ι → ℝ) (hp : p ∈ R) (f0 : Full X ι κ ℝ)
    (fs : List (Full X ι κ ℝ)) (z0 : (κ → ℝ) × (κ → ℝ)) (zs : List ((κ → ℝ) × (κ → ℝ))) (h0 : InputNear D m eps R p f0 z0)
    (h : List.Forall₂ (InputNear D m eps R p) fs zs) :
    Near m (averageLayerT D m f0 fs) p (fun k => ((z0 :: zs).map fun z => z.1 k).sum / ((z0 :: zs).length : ℝ))
      (fun k => eps * (((z0 :: zs).map fun z => z.2 k).sum / ((z0 :: zs).length : ℝ))) := by
  have a := near_addLayer D m eps R p hp f0 fs z0 zs h0 h
  have hl : (f0 :: fs).length = (z0 :: zs).length := by simp [h.length_eq]
  have hn : (0 : ℝ) < ((z0 :: zs).length : ℝ) := by exact_mod_cast Nat.succ_pos _
  rw [averageLayer_eq, hl]
  refine ⟨fun hi k => ?_, fun ha k => ?_⟩
  · rw [← mul_div_assoc, ← sub_div, ← add_div]
    exact ⟨div_le_div_of_nonneg_right (a.const hi k).1 hn.le, div_le_div_of_nonneg_right (a.const hi k).2 hn.le⟩
  · dsimp only
    rw [affEval_div, affEval_div, ← mul_div_assoc, ← sub_div, ← add_div]
    exact ⟨div_le_div_of_nonneg_right (a.aff ha k).1 hn.le, div_le_div_of_nonneg_right (a.aff ha k).2 hn.le⟩

theorem near_maximumFold (D : PertDomain X ι ℝ) (m : Mode) (eps : ℝ) (he : 0 < eps) (R : Set (ι → ℝ)) (p : ι → ℝ) (hp : p ∈ R)
    (fs : List (Full X ι κ ℝ)) (zs : List ((κ → ℝ) × (κ → ℝ))) (h : List.Forall₂ (InputNear D m eps R p) fs zs) (f0 : Full X ι κ ℝ)
    (z0 : (κ → ℝ) × (κ → ℝ)) (h0 : InputNear D m eps R p f0 z0) :
    Near m (maximumLayerT D m eps f0 fs) p (fun k => (zs.map fun z => z.1 k).foldl max (z0.1 k))
      (fun k => eps * (zs.map fun z => z.2 k).foldl maxGain (z0.2 k)) := by
  induction h generalizing f0 z0 with
  | nil => simpa [maximumLayerT] using h0.2.1
  | @cons f z fs zs hf _ ih =>
    have v := near_maximum D m eps he f0 f R h0.1 hf.1 p hp z0.1 z.1 _ _ (fun k => mul_nonneg he.le (h0.2.2 k))
      (fun k => mul_nonneg he.le (hf.2.2 k)) h0.2.1 hf.2.1
    have := ih (maximumT D m false eps (fun _ => 1) f0 f) (fun k => max (z0.1 k) (z.1 k), fun k => maxGain (z0.2 k) (z.2 k))
      ⟨by rw [maximumT_x]; exact hf.1, v.congr (fun _ => rfl) fun k => by unfold maxGain; ring, fun k => maxGain_nonneg (h0.2.2 k) (hf.2.2 k)⟩
    simpa [maximumLayerT] using this

theorem near_minimumFold (D : PertDomain X ι ℝ) (m : Mode) (eps : ℝ) (he : 0 < eps) (R : Set (ι → ℝ)) (p : ι → ℝ) (hp : p ∈ R)
    (fs : List (Full X ι κ ℝ)) (zs : List ((κ → ℝ) × (κ → ℝ))) (h : List.Forall₂ (InputNear D m eps R p) fs zs) (f0 : Full X ι κ ℝ)
    (z0 : (κ → ℝ) × (κ → ℝ)) (h0 : InputNear D m eps R p f0 z0) :
    Near m (minimumLayerT D m eps f0 fs) p (fun k => (zs.map fun z => z.1 k).foldl min (z0.1 k))
      (fun k => eps * (zs.map fun z => z.2 k).foldl maxGain (z0.2 k)) := by
  have neg : ∀ (f : Full X ι κ ℝ) z, InputNear D m eps R p f z → InputNear D m eps R p (minusT D m f) (fun k => - z.1 k, z.2) :=
    fun f z hf => ⟨by simpa [minusT] using hf.1, near_minus D m f p _ _ hf.2.1, hf.2.2⟩
  have h' : List.Forall₂ (InputNear D m eps R p) (fs.map (minusT D m)) (zs.map fun z => (fun k => - z.1 k, z.2)) := by
    rw [List.forall₂_map_left_iff, List.forall₂_map_right_iff]
    exact h.imp neg
  have a := near_maximumFold D m eps he R p hp _ _ h' (minusT D m f0) _ (neg f0 z0 h0)
  have b : Near m (minusT D m (maximumLayerT D m eps (minusT D m f0) (fs.map (minusT D m)))) p
      (fun k => (zs.map fun z => z.1 k).foldl min (z0.1 k)) (fun k => eps * (zs.map fun z => z.2 k).foldl maxGain (z0.2 k)) := by
    refine (near_minus D m _ p _ _ a).congr (fun k => ?_) fun k => by simp [Function.comp_def]
    rw [← foldl_max_neg]
    simp [Function.comp_def]
  cases h with
  | nil => simpa [minimumLayerT] using h0.2.1
  | cons _ _ => exact b

theorem near_concat {J : Type*} {κ : J → Type*} (D : PertDomain X ι ℝ) (m : Mode) (j0 : J) (fs : (j : J) → Full X ι (κ j) ℝ) (R : Set (ι → ℝ))
    (p : ι → ℝ) (hp : p ∈ R) (y s : (j : J) → κ j → ℝ) (h : ∀ j, D.Sound (fs j).x R) (v : ∀ j, Near m (fs j) p (y j) (s j)) :
    Near m (concatLayerT D m j0 fs) p (fun k => y k.1 k.2) (fun k => s k.1 k.2) := by
  have a := fun j => (near_tighten D m false true (fs j) R (h j) p hp (y j) (s j) (v j)).1
  refine ⟨fun hi k => ?_, fun ha k => ?_⟩
  · simp only [concatLayerT, hi, if_true]; exact (a k.1).const hi k.2
  · simp only [concatLayerT, ha, if_true]; exact (a k.1).aff ha k.2

theorem near_reindex_raw {κ' : Type*} (m : Mode) (e : κ' → κ) (f : Full X ι κ ℝ) (p : ι → ℝ) (y s : κ → ℝ) (v : Near m f p y s) :
    Near m (f.reindex e) p (fun k => y (e k)) (fun k => s (e k)) :=
  ⟨fun hi k => v.const hi (e k), fun ha k => v.aff ha (e k)⟩

theorem near_maxPoolFast {o : Type*} (D : PertDomain X ι ℝ) (m : Mode) (win : o → Finset κ) (hw : ∀ k, (win k).Nonempty) (f : Full X ι κ ℝ)
    (R : Set (ι → ℝ)) (hD : D.Sound f.x R) (p : ι → ℝ) (hp : p ∈ R) (y s : κ → ℝ) (v : Near m f p y s) :
    Near m (maxPoolFastT D m win hw f) p (fun k => (win k).sup' (hw k) y) (fun k => (win k).sup' (hw k) s) := by
  have hc := near_tighten_const D m f R hD p hp y s v
  have key : ∀ k, maxPool win hw (f.tighten D m true true).lc k - (win k).sup' (hw k) s ≤ (win k).sup' (hw k) y ∧
      (win k).sup' (hw k) y ≤ maxPool win hw (f.tighten D m true true).uc k + (win k).sup' (hw k) s := by
    intro k
    constructor
    · rw [sub_le_iff_le_add]
      refine Finset.sup'_le _ _ fun j hj => ?_
      have h1 : y j ≤ (win k).sup' (hw k) y := Finset.le_sup' _ hj
      have h2 : s j ≤ (win k).sup' (hw k) s := Finset.le_sup' _ hj
      linarith [(hc j).1]
    · refine Finset.sup'_le _ _ fun j hj => ?_
      have h1 : (f.tighten D m true true).uc j ≤ maxPool win hw (f.tighten D m true true).uc k := Finset.le_sup' _ hj
      have h2 : s j ≤ (win k).sup' (hw k) s := Finset.le_sup' _ hj
      linarith [(hc j).2]
  refine ⟨fun hi k => key k, fun ha k => ?_⟩
  simp only [maxPoolFastT, ha, if_true, zero_mul, affEval_zero_w]
  exact key k

theorem NaryOp.gain_nonneg (op : NaryOp) {r : ℕ} (s0 : ℝ) (s : Fin r → ℝ) (h0 : 0 ≤ s0) (h : ∀ i, 0 ≤ s i) : 0 ≤ op.gain s0 s := by
  have hf := foldl_maxGain_nonneg (List.ofFn s) s0 h0 fun b hb => by
    obtain ⟨i, rfl⟩ := (List.mem_ofFn' _ _).1 hb
    exact h i
  have hs : 0 ≤ s0 + ∑ i, s i := add_nonneg h0 (Finset.sum_nonneg fun i _ => h i)
  cases op with
  | add => exact hs
  | average => exact div_nonneg hs (by positivity)
  | maximum => exact hf
  | minimum => exact hf
  | multiply => exact le_rfl

theorem NaryOp.forwardIn_near (D : PertDomain X ι ℝ) (m : Mode) (eps : ℝ) (he : 0 < eps) (op : NaryOp) (ho : op ≠ .multiply) {r : ℕ}
    (f0 : Full X ι κ ℝ) (fs : Fin r → Full X ι κ ℝ) (R : Set (ι → ℝ)) (p : ι → ℝ) (hp : p ∈ R) (y0 s0 : κ → ℝ) (ys ss : Fin r → κ → ℝ)
    (h0 : InputNear D m eps R p f0 (y0, s0)) (h : ∀ i, InputNear D m eps R p (fs i) (ys i, ss i)) :
    Near m (op.forwardIn D m eps f0 (List.ofFn fs)) p (fun k => op.eval (y0 k) fun i => ys i k)
      (fun k => eps * op.gain (s0 k) fun i => ss i k) := by
  have hf : List.Forall₂ (InputNear D m eps R p) (List.ofFn fs) (List.ofFn fun i => (ys i, ss i)) := forall₂_ofFn _ _ _ h
  have hy : ∀ k, (List.ofFn fun i => (ys i, ss i)).map (fun z => z.1 k) = List.ofFn fun i => ys i k := fun k => by
    simp [List.map_ofFn, Function.comp_def]
  have hs : ∀ k, (List.ofFn fun i => (ys i, ss i)).map (fun z => z.2 k) = List.ofFn fun i => ss i k := fun k => by
    simp [List.map_ofFn, Function.comp_def]
  cases op with
  | add =>
    have := near_addLayer D m eps R p hp f0 _ _ _ h0 hf
    simpa only [NaryOp.forwardIn, NaryOp.eval, NaryOp.gain, List.map_cons, List.sum_cons, hy, hs, List.sum_ofFn] using this
  | average =>
    have := near_averageLayer D m eps R p hp f0 _ _ _ h0 hf
    simpa only [NaryOp.forwardIn, NaryOp.eval, NaryOp.gain, List.map_cons, List.sum_cons, hy, hs, List.sum_ofFn, List.length_cons,
      List.length_ofFn, Nat.cast_add, Nat.cast_one] using this
  | maximum =>
    have := near_maximumFold D m eps he R p hp _ _ hf f0 _ h0
    simp only [hy, hs, fold_ofFn] at this
    exact this
  | minimum =>
    have := near_minimumFold D m eps he R p hp _ _ hf f0 _ h0
    simp only [hy, hs, fold_ofFn] at this
    exact this
  | multiply => exact absurd rfl ho

theorem Step.gain_nonneg {a b : List ℕ} (l : Step a b) (hl : l.WF) (s : Idx a → ℝ) (hs : ∀ k, 0 ≤ s k) (k : Idx b) : 0 ≤ l.gain s k := by
  cases l with
  | lay l => exact l.gain_nonneg hl s hs k
  | act g => exact le_rfl
  | pool win hw =>
    obtain ⟨j, hj⟩ := hw k
    exact (hs j).trans (Finset.le_sup' s hj)

theorem Step.forward_near (D : PertDomain X ι ℝ) (m : Mode) (eps : ℝ) (he : 0 < eps) (slope : Slope) {a b : List ℕ} (l : Step a b) (hl : l.WF)
    (hp' : l.PieceLinear) (f : Full X ι (Idx a) ℝ) (R : Set (ι → ℝ)) (p : ι → ℝ) (hp : p ∈ R) (y s : Idx a → ℝ)
    (h : InputNear D m eps R p f (y, s)) : Near m (l.forward D m eps slope f) p (l.eval y) (fun k => eps * l.gain s k) := by
  cases l with
  | lay l => exact l.forward_near D m eps he slope hl f R h.1 p hp y s h.2.2 h.2.1
  | act g => exact hp'.elim
  | pool win hw =>
    refine (near_maxPoolFast D m win hw f R h.1 p hp y _ h.2.1).congr (fun _ => rfl) fun k => ?_
    have hm : ∀ t u : ℝ, eps * max t u = max (eps * t) (eps * u) := fun t u => mul_max_of_nonneg t u he.le
    exact Finset.apply_sup'_eq_sup'_comp (hw k) (f := s) (fun t : ℝ => eps * t) hm

end

section
variable {X : Type} {n : ℕ}

theorem KOp.gain_nonneg {as : List (List ℕ)} {b : List ℕ} (o : KOp n as b) (ho : o.WF) {F G : List ℕ → Type} (fs : HList F as) (ys : HList G as)
    (ss : HList (fun s => Idx s → ℝ) as) (h : HAll3 (fun _ _ _ s => ∀ k, 0 ≤ s k) fs ys ss) (k : Idx b) : 0 ≤ o.gain ss k := by
  cases o with
  | input => exact le_rfl
  | layer l => cases h with | cons h _ => exact l.gain_nonneg ho _ h k
  | merge op a r => cases h with | cons h ht => exact op.gain_nonneg _ _ (h k) fun i => ht.rep r _ _ _ i k
  | subtract a => cases h with | cons h ht => cases ht with | cons h1 _ => exact add_nonneg (h k) (h1 k)
  | concat as j0 b e => exact h.get (e k).1 (e k).2
  | dot e0 e1 e => exact le_rfl

theorem KOp.forward_near (D : PertDomain X (Idx [n]) ℝ) (m : Mode) (eps : ℝ) (he : 0 < eps) (slope : Slope)
    (inp : Full X (Idx [n]) (Idx [n]) ℝ) (R : Set (Idx [n] → ℝ)) (hD : D.Sound inp.x R) (p : Idx [n] → ℝ) (hp : p ∈ R)
    (hi : Valid m false inp p p) {as : List (List ℕ)} {b : List ℕ} (o : KOp n as b) (ho : o.WF) (hl : o.PieceLinear)
    (fs : HList (fun s => Full X (Idx [n]) (Idx s) ℝ) as) (ys ss : HList (fun s => Idx s → ℝ) as)
    (h : HAll3 (fun _ f y s => f.x = inp.x ∧ Near m f p y (fun k => eps * s k) ∧ ∀ k, 0 ≤ s k) fs ys ss) :
    Near m (o.forward D m eps slope inp fs) p (o.eval p ys) (fun k => eps * o.gain ss k) := by
  have hx : ∀ {κ : Type} {f : Full X (Idx [n]) κ ℝ} {y s : κ → ℝ}, f.x = inp.x ∧ Near m f p y (fun k => eps * s k) ∧ (∀ k, 0 ≤ s k) →
      InputNear D m eps R p f (y, s) := fun e => ⟨by rw [e.1]; exact hD, e.2⟩
  cases o with
  | input => exact (near_of_valid m inp p p hi).congr (fun _ => rfl) fun _ => by simp [KOp.gain]
  | layer l => cases h with | cons h _ => exact l.forward_near D m eps he slope ho hl _ R p hp _ _ (hx h)
  | merge op a r =>
    cases h with
    | @cons _ _ _ _ _ t u w h ht =>
      exact NaryOp.forwardIn_near D m eps he op hl _ (t.rep r) R p hp _ _ (u.rep r) (w.rep r) (hx h) fun i => hx (ht.rep r _ _ _ i)
  | subtract a =>
    cases h with
    | cons h ht =>
      cases ht with
      | cons h1 _ =>
        exact (near_subtract D m _ _ R (hx h).1 (hx h1).1 p hp _ _ _ _ h.2.1 h1.2.1).congr (fun _ => rfl) fun _ => by simp only [KOp.gain]; ring
  | concat as j0 b e =>
    exact near_reindex_raw m e _ p _ _
      (near_concat D m j0 _ R p hp (fun j => ys.get j) (fun j k => eps * ss.get j k) (fun j => (hx (h.get j)).1) fun j => (h.get j).2.1)
  | dot e0 e1 e => exact hl.elim

/-- The tensors of every node hold up to its error. -/
theorem bounds_near (D : PertDomain X (Idx [n]) ℝ) (m : Mode) (eps : ℝ) (he : 0 < eps) (slope : Slope) (inp : Full X (Idx [n]) (Idx [n]) ℝ)
    (R : Set (Idx [n] → ℝ)) (hD : D.Sound inp.x R) (G : KGraph n) (order : List ℕ) (ht : Topological G.parents order)
    (hG : ∀ v ∈ order, (G.op v).WF) (hl : ∀ v ∈ order, (G.op v).PieceLinear) (f : (v : ℕ) → Full X (Idx [n]) (Idx (G.sh v)) ℝ)
    (hf : G.IsBounds D m eps slope inp order f) (p : Idx [n] → ℝ) (hp : p ∈ R) (hi : Valid m false inp p p)
    (y : (v : ℕ) → Idx (G.sh v) → ℝ) (hy : G.IsValue p order y) (s : (v : ℕ) → Idx (G.sh v) → ℝ) (hs : G.IsGain order s) :
    ∀ v ∈ order, (f v).x = inp.x ∧ Near m (f v) p (y v) (fun k => eps * s v k) ∧ ∀ k, 0 ≤ s v k := by
  refine topological_induction G.parents ht _ fun v hv ih => ?_
  have h := hAll3_nodes (σ := List ℕ) (F := fun s => Full X (Idx [n]) (Idx s) ℝ) (G := fun s => Idx s → ℝ) (H := fun s => Idx s → ℝ) (sh := G.sh)
    (P := fun _ f y s => f.x = inp.x ∧ Near m f p y (fun k => eps * s k) ∧ ∀ k, 0 ≤ s k) f y s (G.parents v) ih
  have hx := hAll_nodes (σ := List ℕ) (F := fun s => Full X (Idx [n]) (Idx s) ℝ) (G := fun s => Idx s → ℝ) (sh := G.sh)
    (P := fun _ f _ => f.x = inp.x) f y (G.parents v) fun w hw => (ih w hw).1
  have hn := hAll3_nodes (σ := List ℕ) (F := fun s => Full X (Idx [n]) (Idx s) ℝ) (G := fun s => Idx s → ℝ) (H := fun s => Idx s → ℝ) (sh := G.sh)
    (P := fun _ _ _ s => ∀ k, 0 ≤ s k) f y s (G.parents v) fun w hw => (ih w hw).2.2
  rw [hf v hv, hy v hv, hs v hv]
  refine ⟨carried_x (KOp.forward_x D m eps slope inp _ _ _ hx), ?_, KOp.gain_nonneg _ (hG v hv) _ _ _ hn⟩
  have := KOp.forward_near D m eps he slope inp R hD p hp hi _ (hG v hv) (hl v hv) _ _ _ h
  refine ⟨fun hi k => ?_, fun ha k => ?_⟩
  · simp only [Full.carried, hi, if_true]; exact this.const hi k
  · simp only [Full.carried, ha, if_true]; exact this.aff ha k

end

end Decomon
