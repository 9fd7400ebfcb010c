import Verif.Lemmas.FloatGraph
import Verif.Lemmas.RoundReal
import Verif.Props.FloatSplit
import Verif.Props.GraphSlack
import Verif.SpecUnfold

/-!
C157: certificates of the forward methods in rounded arithmetic, on every graph of linear layers, ReLUs, `MaxPooling2D`, `Concatenate` and merge layers on any
number of inputs.
-/

namespace Decomon

section
variable {n : ℕ} {rd rm cv : ℝ → ℝ} {δ : ℝ}

instance : Nonempty (ModeErr ℝ) := ⟨⟨0, 0, 0, 0⟩⟩
instance : Nonempty (CallErr ℝ) := ⟨⟨0, 0⟩⟩

/-- C157: the sizes and the errors of the bounds and of the values are defined for every graph, before anything is run, and only depend on the graph, the
precision and the sizes of the inputs. -/
theorem C157_errors (m : Mode) (δ eps bn : ℝ) (E : OpError ℝ) (σ : ℝ) (X : Idx [n] → ℝ) (G : KGraph n) (order : List ℕ) (ht : Topological G.parents order) :
    ((∃ e, G.IsErr m δ eps bn X order e) ∧ ∀ e e', G.IsErr m δ eps bn X order e → G.IsErr m δ eps bn X order e' → ∀ v ∈ order, e v = e' v) ∧
    (∃ e, G.IsCallErr E δ σ X order e) ∧ ∀ e e', G.IsCallErr E δ σ X order e → G.IsCallErr E δ σ X order e' → ∀ v ∈ order, e v = e' v := by
  refine ⟨⟨?_, ?_⟩, ?_, ?_⟩
  · exact exists_nodes G.parents (T := fun v => Idx (G.sh v) → ModeErr ℝ) (fun v y => (G.op v).modeErr m δ eps bn X (HList.ofNodes y (G.parents v)))
      (fun v g g' h => by simp only [ofNodes_congr (F := fun s => Idx s → ModeErr ℝ) (sh := G.sh) g g' _ h]) ht
  · intro y y' h h'
    refine topological_induction G.parents ht _ fun v hv ih => ?_
    rw [h v hv, h' v hv, ofNodes_congr (F := fun s => Idx s → ModeErr ℝ) (sh := G.sh) y y' _ ih]
  · exact exists_nodes G.parents (T := fun v => Idx (G.sh v) → CallErr ℝ) (fun v y => (G.op v).callErr E δ σ X (HList.ofNodes y (G.parents v)))
      (fun v g g' h => by simp only [ofNodes_congr (F := fun s => Idx s → CallErr ℝ) (sh := G.sh) g g' _ h]) ht
  · intro y y' h h'
    refine topological_induction G.parents ht _ fun v hv ih => ?_
    rw [h v hv, h' v hv, ofNodes_congr (F := fun s => Idx s → CallErr ℝ) (sh := G.sh) y y' _ ih]

/-- C157: the bounds that decomon computes at every node of the graph are right up to the error of the node, for every point of the box. -/
theorem C157_rounded (hδ : 0 ≤ δ) (hδ1 : δ < 1) (h : RelError rd δ) (m : Mode) (eps : ℝ) (he : 0 < eps) (sl : Slope) (bn : ℝ) (hbn : 0 ≤ bn)
    (b : BoxOf (Idx [n]) ℝ) (X : Idx [n] → ℝ) (hX : ∀ i, |b.1 i| ≤ X i ∧ |b.2 i| ≤ X i) (G : KGraph n) (order : List ℕ) (ht : Topological G.parents order)
    (hG : ∀ v ∈ order, (G.op v).WF) (e : (v : ℕ) → Idx (G.sh v) → ModeErr ℝ) (hE : G.IsErr m δ eps bn X order e)
    (f : (v : ℕ) → Full (BoxOf (Idx [n]) ℝ) (Idx [n]) (Idx (G.sh v)) ℝ) (hf : G.RoundedBounds rd m eps sl bn (inputTensorsBox m b.1 b.2) order f)
    (p : Idx [n] → ℝ) (hp : p ∈ Box b.1 b.2) (y : (v : ℕ) → Idx (G.sh v) → ℝ) (hy : G.IsValue p order y) :
    ∀ v ∈ order, (f v).x = b ∧ ModeNear m X (f v) p (y v) (e v) ∧ ∀ k, (e v k).Nonneg := by
  have hpX : ∀ i, |p i| ≤ X i := fun i => (peak_point b hp i).trans (max_le (hX i).1 (hX i).2)
  have hi : NodeNear m X p b (inputTensorsBox m b.1 b.2) (p, fun i => ⟨X i, 0, X i, 0⟩) :=
    ⟨rfl, input_nearTo m b hp hX, fun i => ⟨(abs_nonneg _).trans (hpX i), le_rfl, (abs_nonneg _).trans (hpX i), le_rfl⟩⟩
  refine topological_induction G.parents ht _ fun v hv ih => ?_
  have q := hAll3_nodes (σ := List ℕ) (F := fun s => Full (BoxOf (Idx [n]) ℝ) (Idx [n]) (Idx s) ℝ) (G := fun s => Idx s → ℝ)
    (H := fun s => Idx s → ModeErr ℝ) (sh := G.sh) (P := fun _ f y e => NodeNear m X p b f (y, e)) f y e (G.parents v) ih
  have := KOp.RoundedMode.near hδ hδ1 h he hbn hX hp hpX hi (G.op v) (hG v hv) _ _ _ q _ (hf v hv)
  rw [← hy v hv, ← hE v hv] at this
  exact this

/-- C157: the range that is returned for a sample replaced by boxes that cover its box encloses the outputs of the model on every point of the box, up to a
slack known in advance.  The model receives the points and the corners in its own format. -/
theorem C157_range (hδ : 0 ≤ δ) (hδ1 : δ < 1) (h : RelError rd δ) (h' : RelError rm δ) (hcv : Conversion cv δ) (m : Mode) (eps : ℝ) (he : 0 < eps)
    (sl : Slope) (bn : ℝ) (hbn : 0 ≤ bn) (bs : List (BoxOf (Idx [n]) ℝ)) (X : Idx [n] → ℝ) (hX : CornersBelow cv bs X) (G : KGraph n) (order : List ℕ)
    (ht : Topological G.parents order) (hG : ∀ v ∈ order, (G.op v).WF) (o : ℕ) (ho : o ∈ order) (e : (v : ℕ) → Idx (G.sh v) → ModeErr ℝ)
    (hE : G.IsErr m δ eps bn X order e) (k : Idx (G.sh o)) (U L : ℝ) (hr : G.RangeOver rd rm cv m eps sl bn bs order o k U L)
    (p : Idx [n] → ℝ) (hp : ∃ c ∈ bs, p ∈ Box c.1 c.2) (y : (v : ℕ) → Idx (G.sh v) → ℝ) (hy : G.IsValue (fun i => cv (p i)) order y) :
    L - ((e o k).cast δ).readSlack m δ n ≤ y o k ∧ y o k ≤ U + ((e o k).cast δ).readSlack m δ n := by
  obtain ⟨rs, hrs, rfl, rfl⟩ := hr
  obtain ⟨c, hc, hpc⟩ := hp
  obtain ⟨i, hi, rfl⟩ := List.getElem_of_mem hc
  have hi' : i < rs.length := by rwa [← hrs.length_eq]
  obtain ⟨f, hf, hgr⟩ := hrs.get hi hi'
  have v := (C157_rounded hδ hδ1 h' m eps he sl bn hbn (castBox cv bs[i]) X (hX _ hc) G order ht hG e hE f hf _ (cast_mem hcv hpc) y hy o ho).2.1
  have w := (ModeNear.converted hδ hδ1 hcv hpc (v.shrink fun i => max_le ((hX _ hc) i).1 ((hX _ hc) i).2)).range hδ h hpc hgr
  rw [← Fintype.card_congr (oneAxis n), Fintype.card_fin] at w
  have m1 : rs[i].1 ≤ listMax (rs.map Prod.fst) := le_listMax (List.mem_map.2 ⟨_, List.getElem_mem hi', rfl⟩)
  have m2 : listMin (rs.map Prod.snd) ≤ rs[i].2 := listMin_le (List.mem_map.2 ⟨_, List.getElem_mem hi', rfl⟩)
  exact ⟨le_trans (sub_le_sub_right m2 _) w.1, w.2.trans (add_le_add m1 le_rfl)⟩

/-- C157: the score that is returned bounds the differences between the outputs of the model on every point of the box, up to a slack known in advance. -/
theorem C157_score (hδ : 0 ≤ δ) (hδ1 : δ < 1) (h : RelError rd δ) (h' : RelError rm δ) (hcv : Conversion cv δ) (m : Mode) (eps : ℝ) (he : 0 < eps)
    (sl : Slope) (bn : ℝ) (hbn : 0 ≤ bn) (bs : List (BoxOf (Idx [n]) ℝ)) (X : Idx [n] → ℝ) (hX : CornersBelow cv bs X) (G : KGraph n) (order : List ℕ)
    (ht : Topological G.parents order) (hG : ∀ v ∈ order, (G.op v).WF) (o : ℕ) (ho : o ∈ order) (e : (v : ℕ) → Idx (G.sh v) → ModeErr ℝ)
    (hE : G.IsErr m δ eps bn X order e) (T : Set (Idx (G.sh o))) (c : Idx (G.sh o)) (R : ℝ) (hR : G.AdvOver rd rm cv m eps sl bn bs order o T c R)
    (p : Idx [n] → ℝ) (hp : ∃ c ∈ bs, p ∈ Box c.1 c.2) (y : (v : ℕ) → Idx (G.sh v) → ℝ) (hy : G.IsValue (fun i => cv (p i)) order y) (j : Idx (G.sh o))
    (hj : j ∈ T) : y o j - y o c ≤ R + (e o j).score m δ n (e o c) := by
  obtain ⟨rs, hrs, rfl⟩ := hR
  obtain ⟨d, hd, hpd⟩ := hp
  obtain ⟨i, hi, rfl⟩ := List.getElem_of_mem hd
  have hi' : i < rs.length := by rwa [← hrs.length_eq]
  obtain ⟨f, hf, hgr⟩ := hrs.get hi hi'
  have v := (C157_rounded hδ hδ1 h' m eps he sl bn hbn (castBox cv bs[i]) X (hX _ hd) G order ht hG e hE f hf _ (cast_mem hcv hpd) y hy o ho).2.1
  have w := (v.shrink (Y := boxPeak (castBox cv bs[i])) fun i => max_le ((hX _ hd) i).1 ((hX _ hd) i).2).score hδ h (cast_mem hcv hpd) hgr hj
  rw [← Fintype.card_congr (oneAxis n), Fintype.card_fin] at w
  exact w.trans (add_le_add (le_listMax (List.getElem_mem hi')) le_rfl)

/-- C157: what Keras computes at every node is the exact value up to the error of the node. -/
theorem C157_call (hδ : 0 ≤ δ) (h : RelError rd δ) (bk : ℝ → ℝ → ℝ → ℝ → ℝ → ℝ) (hbk : ∀ g b m s x y, 0 ≤ x → x ≤ y → bk g b m s x ≤ bk g b m s y) (σ : ℝ)
    (hσ : 0 < σ) (G : KGraph n) (order : List ℕ) (ht : Topological G.parents order) (hG : ∀ v ∈ order, (G.op v).WF) (hl : ∀ v ∈ order, (G.op v).PieceLinear)
    (hsd : ∀ v ∈ order, (G.op v).SdAbove σ) (X p : Idx [n] → ℝ) (hp : ∀ i, |p i| ≤ X i) (e : (v : ℕ) → Idx (G.sh v) → CallErr ℝ)
    (hE : G.IsCallErr (roundError δ bk) δ σ X order e) (y w : (v : ℕ) → Idx (G.sh v) → ℝ) (hy : G.IsValue p order y) (hw : G.RoundedValue rd bk p order w) :
    ∀ v ∈ order, ∀ k, |w v k| ≤ (e v k).size ∧ |w v k - y v k| ≤ (e v k).err := by
  refine topological_induction G.parents ht _ fun v hv ih => ?_
  have q := hAll3_nodes (σ := List ℕ) (F := fun s => Idx s → ℝ) (G := fun s => Idx s → ℝ) (H := fun s => Idx s → CallErr ℝ) (sh := G.sh)
    (P := fun _ w y e => ∀ k, CallNear (w k) (y k) (e k)) w y e (G.parents v) ih
  have := KOp.call_near hδ h bk hbk σ hσ hp (G.op v) (hG v hv) (hl v hv) (hsd v hv) _ _ _ q _ (hw v hv)
  rw [← hy v hv, ← hE v hv] at this
  exact this

end

theorem onAxis_mem {n : ℕ} {b : BoxOf (Fin n) ℝ} {p : Fin n → ℝ} (hp : p ∈ Box b.1 b.2) :
    (fun i => p ((oneAxis n).symm i)) ∈ Box (onAxis b).1 (onAxis b).2 := fun _ => hp _

section
variable {n : ℕ} {rd rm cv : ℝ → ℝ} {δ : ℝ}

theorem refined_corners (hb2 : Binary rd) (hcv : Conversion cv δ) (nSub : ℕ) (b : BoxOf (Fin (n + 1)) ℝ) (hb : GoodBox b) (hf : InFormat rd b) :
    CornersBelow cv ((refineRounded rd nSub b).map onAxis) (boxPeak (castBox cv (onAxis b))) := by
  refine corners_of_inside hcv.mono fun c hc => ?_
  obtain ⟨d, hd, rfl⟩ := List.mem_map.1 hc
  obtain ⟨h1, -, h2⟩ := C156_inside rd hb2 nSub b hb hf d hd
  exact ⟨fun i => h1 _, fun i => h2 _⟩

theorem refined_covers (rd : ℝ → ℝ) (nSub : ℕ) (b : BoxOf (Fin (n + 1)) ℝ) {p : Fin (n + 1) → ℝ} (hp : p ∈ Box b.1 b.2) :
    ∃ c ∈ (refineRounded rd nSub b).map onAxis, (fun i => p ((oneAxis (n + 1)).symm i)) ∈ Box c.1 c.2 := by
  obtain ⟨c, hc, h⟩ := C156_covers rd nSub b p hp
  exact ⟨_, List.mem_map_of_mem hc, onAxis_mem h⟩

/-- C157: `get_range_box` with or without sub-boxes: an upper bound below a threshold by more than the errors known in advance keeps the output that Keras
computes below it, on the whole box; so does a lower bound above it. -/
theorem C157_range_certificate (hδ : 0 ≤ δ) (hδ1 : δ < 1) (h : RelError rd δ) (hb2 : Binary rd) (h' : RelError rm δ) (hcv : Conversion cv δ) (m : Mode) (eps : ℝ)
    (he : 0 < eps) (sl : Slope) (bn : ℝ) (hbn : 0 ≤ bn) (bk : ℝ → ℝ → ℝ → ℝ → ℝ → ℝ) (hbk : ∀ g b m s x y, 0 ≤ x → x ≤ y → bk g b m s x ≤ bk g b m s y)
    (σ : ℝ) (hσ : 0 < σ) (nSub : ℕ) (b : BoxOf (Fin (n + 1)) ℝ) (hb : GoodBox b) (hf : InFormat rd b) (G : KGraph (n + 1)) (order : List ℕ) (o M : ℕ)
    (hG : G.PieceReady order o M) (hsd : ∀ v ∈ order, (G.op v).SdAbove σ) (e : (v : ℕ) → Idx (G.sh v) → ModeErr ℝ)
    (hE : G.IsErr m δ eps bn (boxPeak (castBox cv (onAxis b))) order e) (c : (v : ℕ) → Idx (G.sh v) → CallErr ℝ)
    (hC : G.IsCallErr (roundError δ bk) δ σ (boxPeak (castBox cv (onAxis b))) order c) (k : Idx (G.sh o)) (U L t : ℝ)
    (hr : G.RangeOver rd rm cv m eps sl bn ((refineRounded rd nSub b).map onAxis) order o k U L) (p : Fin (n + 1) → ℝ) (hp : p ∈ Box b.1 b.2)
    (w : (v : ℕ) → Idx (G.sh v) → ℝ) (hw : G.RoundedValue rm bk (fun i => cv (p ((oneAxis (n + 1)).symm i))) order w) :
    (U + (((e o k).cast δ).readSlack m δ (n + 1) + (c o k).err) < t → w o k < t) ∧
    (t < L - (((e o k).cast δ).readSlack m δ (n + 1) + (c o k).err) → t < w o k) := by
  obtain ⟨y, hy⟩ := (C131_value G order hG.sorted fun i => cv (p ((oneAxis (n + 1)).symm i))).1
  have a := C157_range hδ hδ1 h h' hcv m eps he sl bn hbn _ _ (refined_corners hb2 hcv nSub b hb hf) G order hG.sorted hG.layers o hG.out e hE k U L hr _
    (refined_covers rd nSub b hp) y hy
  have q := (C157_call hδ h' bk hbk σ hσ G order hG.sorted hG.layers hG.kinds hsd _ _ (peak_point (castBox cv (onAxis b)) (cast_mem hcv (onAxis_mem hp))) c hC y
    w hy hw o hG.out k).2
  have := abs_le.1 q
  constructor <;> intro ht <;> linarith [a.1, a.2]

/-- C157: `get_adv_box` with or without sub-boxes: if the score is below the errors known in advance, Keras computes a larger output for the source class than
for every target class, on the whole box. -/
theorem C157_adv_certificate (hδ : 0 ≤ δ) (hδ1 : δ < 1) (h : RelError rd δ) (hb2 : Binary rd) (h' : RelError rm δ) (hcv : Conversion cv δ) (m : Mode) (eps : ℝ)
    (he : 0 < eps) (sl : Slope) (bn : ℝ) (hbn : 0 ≤ bn) (bk : ℝ → ℝ → ℝ → ℝ → ℝ → ℝ) (hbk : ∀ g b m s x y, 0 ≤ x → x ≤ y → bk g b m s x ≤ bk g b m s y)
    (σ : ℝ) (hσ : 0 < σ) (nSub : ℕ) (b : BoxOf (Fin (n + 1)) ℝ) (hb : GoodBox b) (hf : InFormat rd b) (G : KGraph (n + 1)) (order : List ℕ) (o M : ℕ)
    (hG : G.PieceReady order o M) (hsd : ∀ v ∈ order, (G.op v).SdAbove σ) (e : (v : ℕ) → Idx (G.sh v) → ModeErr ℝ)
    (hE : G.IsErr m δ eps bn (boxPeak (castBox cv (onAxis b))) order e) (c : (v : ℕ) → Idx (G.sh v) → CallErr ℝ)
    (hC : G.IsCallErr (roundError δ bk) δ σ (boxPeak (castBox cv (onAxis b))) order c) (T : Set (Idx (G.sh o))) (s : Idx (G.sh o)) (R : ℝ)
    (hR : G.AdvOver rd rm cv m eps sl bn ((refineRounded rd nSub b).map onAxis) order o T s R)
    (hc : ∀ j ∈ T, R < -((e o j).score m δ (n + 1) (e o s) + (c o j).err + (c o s).err)) (p : Fin (n + 1) → ℝ) (hp : p ∈ Box b.1 b.2)
    (w : (v : ℕ) → Idx (G.sh v) → ℝ) (hw : G.RoundedValue rm bk (fun i => cv (p ((oneAxis (n + 1)).symm i))) order w) (j : Idx (G.sh o)) (hj : j ∈ T) :
    w o j < w o s := by
  obtain ⟨y, hy⟩ := (C131_value G order hG.sorted fun i => cv (p ((oneAxis (n + 1)).symm i))).1
  have a := C157_score hδ hδ1 h h' hcv m eps he sl bn hbn _ _ (refined_corners hb2 hcv nSub b hb hf) G order hG.sorted hG.layers o hG.out e hE T s R hR _
    (refined_covers rd nSub b hp) y hy j hj
  have q := C157_call hδ h' bk hbk σ hσ G order hG.sorted hG.layers hG.kinds hsd _ _ (peak_point (castBox cv (onAxis b)) (cast_mem hcv (onAxis_mem hp))) c hC y w
    hy hw o hG.out
  have q1 := abs_le.1 (q j).2
  have q2 := abs_le.1 (q s).2
  linarith [hc j hj]

end

/-! ### The results exist -/

section
variable {ι κ κ' : Type} [Fintype ι]

theorem exists_read (rd : ℝ → ℝ) (m : Mode) (f : Full (BoxOf ι ℝ) ι κ ℝ) : ∃ f', ReadRounded rd m f f' := by
  obtain ⟨u, l, h⟩ := exists_tight rd m f
  exact ⟨{ f with uc := u, lc := l }, ⟨rfl, rfl, rfl, rfl, rfl⟩, fun _ => h⟩

theorem exists_addMany (rd : ℝ → ℝ) (m : Mode) (f0 : Full (BoxOf ι ℝ) ι κ ℝ) (fs : List (Full (BoxOf ι ℝ) ι κ ℝ)) : ∃ g, AddMany rd m f0 fs g := by
  obtain ⟨f0', h0⟩ := exists_read rd m f0
  have : ∃ fs', List.Forall₂ (ReadRounded rd m) fs fs' := by
    induction fs with
    | nil => exact ⟨[], .nil⟩
    | cons f fs ih => exact ih.elim fun t ht => (exists_read rd m f).elim fun f' hf' => ⟨f' :: t, .cons hf' ht⟩
  exact this.elim fun fs' h => ⟨_, f0', fs', h0, h, rfl⟩

theorem exists_maxMany (rd : ℝ → ℝ) (m : Mode) (eps : ℝ) (fs : List (Full (BoxOf ι ℝ) ι κ ℝ)) (f0 : Full (BoxOf ι ℝ) ι κ ℝ) : ∃ g, MaxMany rd m eps f0 fs g := by
  induction fs generalizing f0 with
  | nil => exact ⟨f0, rfl⟩
  | cons f fs ih => exact (exists_maxMode rd m eps f0 f).elim fun a ha => (ih a).elim fun g hg => ⟨g, a, ha, hg⟩

theorem exists_layMode [Fintype κ] [DecidableEq ι] (rd : ℝ → ℝ) (m : Mode) (eps : ℝ) (sl : Slope) (bn : ℝ) (hbn : 0 ≤ bn) (l : Lay ℝ κ κ') (hl : l.WF)
    (hp : l.PlainRelu) (f : Full (BoxOf ι ℝ) ι κ ℝ) : ∃ g, l.RoundedMode rd m eps sl bn f g := by
  obtain ⟨u, lo, ht⟩ := exists_tight rd m f
  have build : (∃ g1, l.RoundedAffine rd eps sl bn f g1) → (∃ g2, l.RoundedAffine rd eps sl bn (constAff u lo) g2) →
      ∃ g : Full (BoxOf ι ℝ) ι _ ℝ, g.x = f.x ∧ (getAffine m = true → ∃ g', l.RoundedAffine rd eps sl bn f g' ∧ g.SameAff g') ∧
        (getIbp m = true → ∃ u lo g', TightRounded rd m f u lo ∧ l.RoundedAffine rd eps sl bn (constAff u lo) g' ∧ g.uc = g'.bu ∧ g.lc = g'.bl) := by
    rintro ⟨g1, h1⟩ ⟨g2, h2⟩
    have x : l.RoundedAffine rd eps sl bn f g1 → g1.x = f.x := fun h => h.x
    exact ⟨{ g1 with uc := g2.bu, lc := g2.bl }, x h1, fun _ => ⟨g1, h1, rfl, rfl, rfl, rfl, rfl⟩, fun _ => ⟨u, lo, g2, ht, h2, rfl, rfl⟩⟩
  cases l with
  | relu gf gb => exact (exists_reluMode rd m eps sl f).imp fun _ h => ⟨hp, h⟩
  | skip => exact ⟨_, rfl⟩
  | _ => exact build (exists_linearPart rd eps sl bn hbn _ hl trivial f) (exists_linearPart rd eps sl bn hbn _ hl trivial _)

theorem exists_layCall [Fintype κ] (rd : ℝ → ℝ) (bk : ℝ → ℝ → ℝ → ℝ → ℝ → ℝ) (hb0 : ∀ g b m s x, 0 ≤ bk g b m s x) (l : Lay ℝ κ κ') (w : κ → ℝ) :
    ∃ v, l.RoundedCall rd bk w v := by
  cases l with
  | dense kernel bias =>
    choose d hd using fun o => exists_isSum rd fun t => w t * kernel t o
    exact ⟨_, fun o => ⟨d o, hd o, rfl⟩⟩
  | linear L kernel bias =>
    choose d hd using fun o => exists_isSum rd fun t => (L.src o t).elim 0 w * kernel (L.kidx o t)
    exact ⟨_, fun o => ⟨d o, hd o, rfl⟩⟩
  | relu gf gb => exact ⟨_, fun k => rfl⟩
  | batchNorm gamma beta mean sd => exact ⟨fun k => gamma k * ((w k - mean k) / sd k) + beta k, fun k => by simpa using hb0 _ _ _ _ _⟩
  | reshape e => exact ⟨_, fun k => rfl⟩
  | skip => exact ⟨_, fun k => rfl⟩

end

section
variable {n : ℕ}

theorem KOp.exists_mode (rd : ℝ → ℝ) (m : Mode) (eps : ℝ) (sl : Slope) (bn : ℝ) (hbn : 0 ≤ bn) (inp : Full (BoxOf (Idx [n]) ℝ) (Idx [n]) (Idx [n]) ℝ)
    {as : List (List ℕ)} {b : List ℕ} (o : KOp n as b) (ho : o.WF) (hl : o.PieceLinear) (hp : o.PlainRelu)
    (fs : HList (fun s => Full (BoxOf (Idx [n]) ℝ) (Idx [n]) (Idx s) ℝ) as) : ∃ g, o.RoundedMode rd m eps sl bn inp fs g := by
  cases o with
  | input => exact ⟨inp, rfl⟩
  | layer l =>
    cases fs with
    | cons f _ =>
      cases l with
      | lay l => exact exists_layMode rd m eps sl bn hbn l ho hp f
      | act g => exact hl.elim
      | pool win hw =>
        obtain ⟨u, l, h⟩ := exists_tight rd m f
        exact ⟨⟨f.x, _, fun _ _ => 0, _, _, fun _ _ => 0, _, fun _ => 0, fun _ => 0⟩, u, l, h, rfl, fun _ => ⟨rfl, rfl⟩, fun _ => ⟨fun _ _ => ⟨rfl, rfl⟩, rfl, rfl⟩⟩
  | merge op a r =>
    cases fs with
    | cons f t =>
      cases op with
      | add => exact exists_addMany rd m f _
      | average => exact (exists_addMany rd m f _).elim fun s hs => ⟨_, s, hs, rfl⟩
      | maximum => exact exists_maxMany rd m eps _ f
      | minimum =>
        change ∃ g, MinMany rd m eps f (List.ofFn (t.rep r)) g
        unfold MinMany
        split
        · exact ⟨f, rfl⟩
        · exact (exists_maxMany rd m eps _ _).elim fun a ha => ⟨_, a, ha, rfl⟩
      | multiply => exact absurd rfl hl
  | subtract a => cases fs with | cons f t => cases t with | cons f' _ => exact exists_addMode rd m f _
  | concat as j0 b pos =>
    choose fs' h using fun j => exists_read rd m (fs.get j)
    exact ⟨⟨(fs.get j0).x, fun k => (fs' (pos k).1).uc (pos k).2, fun i k => (fs' (pos k).1).wu i (pos k).2, fun k => (fs' (pos k).1).bu (pos k).2,
      fun k => (fs' (pos k).1).lc (pos k).2, fun i k => (fs' (pos k).1).wl i (pos k).2, fun k => (fs' (pos k).1).bl (pos k).2, fun _ => 0, fun _ => 0⟩, fs', h, rfl,
      fun _ _ => ⟨rfl, rfl⟩, fun _ _ => ⟨fun _ => ⟨rfl, rfl⟩, rfl, rfl⟩⟩
  | dot e0 e1 e => exact hl.elim

theorem KOp.exists_call (rd : ℝ → ℝ) (bk : ℝ → ℝ → ℝ → ℝ → ℝ → ℝ) (hb0 : ∀ g b m s x, 0 ≤ bk g b m s x) (p : Idx [n] → ℝ) {as : List (List ℕ)} {b : List ℕ}
    (o : KOp n as b) (hl : o.PieceLinear) (ws : HList (fun s => Idx s → ℝ) as) : ∃ v, o.RoundedCall rd bk p ws v := by
  cases o with
  | input => exact ⟨p, rfl⟩
  | layer l =>
    cases ws with
    | cons w _ =>
      cases l with
      | lay l => exact exists_layCall rd bk hb0 l w
      | act g => exact hl.elim
      | pool win hw => exact ⟨_, fun k => rfl⟩
  | merge op a r => cases ws with | cons w t => exact ⟨_, fun k => rfl⟩
  | subtract a => cases ws with | cons w t => cases t with | cons w' _ => exact ⟨_, fun k => rfl⟩
  | concat as j0 b pos => exact ⟨_, fun k => rfl⟩
  | dot e0 e1 e => exact hl.elim

/-- C157: in every arithmetic and every mode the nodes have such bounds, and Keras such values. -/
theorem C157_exists (rd : ℝ → ℝ) (m : Mode) (eps : ℝ) (sl : Slope) (bn : ℝ) (hbn : 0 ≤ bn) (bk : ℝ → ℝ → ℝ → ℝ → ℝ → ℝ) (hb0 : ∀ g b m s x, 0 ≤ bk g b m s x)
    (inp : Full (BoxOf (Idx [n]) ℝ) (Idx [n]) (Idx [n]) ℝ) (p : Idx [n] → ℝ) (G : KGraph n) (order : List ℕ) (ht : Topological G.parents order)
    (hG : ∀ v ∈ order, (G.op v).WF) (hl : ∀ v ∈ order, (G.op v).PieceLinear) (hp : ∀ v ∈ order, (G.op v).PlainRelu) :
    (∃ f, G.RoundedBounds rd m eps sl bn inp order f) ∧ ∃ w, G.RoundedValue rd bk p order w := by
  classical
  have (v : ℕ) : Nonempty (Full (BoxOf (Idx [n]) ℝ) (Idx [n]) (Idx (G.sh v)) ℝ) :=
    ⟨⟨inp.x, fun _ => 0, fun _ _ => 0, fun _ => 0, fun _ => 0, fun _ _ => 0, fun _ => 0, fun _ => 0, fun _ => 0⟩⟩
  constructor
  · obtain ⟨f, hf⟩ := exists_nodes G.parents (T := fun v => Full (BoxOf (Idx [n]) ℝ) (Idx [n]) (Idx (G.sh v)) ℝ)
      (fun v f => Classical.epsilon fun g => (G.op v).RoundedMode rd m eps sl bn inp (HList.ofNodes f (G.parents v)) g)
      (fun v g g' h => by simp only [ofNodes_congr (F := fun s => Full (BoxOf (Idx [n]) ℝ) (Idx [n]) (Idx s) ℝ) (sh := G.sh) g g' _ h]) ht
    refine ⟨f, fun v hv => ?_⟩
    have := Classical.epsilon_spec ((G.op v).exists_mode rd m eps sl bn hbn inp (hG v hv) (hl v hv) (hp v hv) (HList.ofNodes f (G.parents v)))
    rwa [← hf v hv] at this
  · obtain ⟨f, hf⟩ := exists_nodes G.parents (T := fun v => Idx (G.sh v) → ℝ)
      (fun v f => Classical.epsilon fun g => (G.op v).RoundedCall rd bk p (HList.ofNodes f (G.parents v)) g)
      (fun v g g' h => by simp only [ofNodes_congr (F := fun s => Idx s → ℝ) (sh := G.sh) g g' _ h]) ht
    refine ⟨f, fun v hv => ?_⟩
    have := Classical.epsilon_spec ((G.op v).exists_call rd bk hb0 p (hl v hv) (HList.ofNodes f (G.parents v)))
    rwa [← hf v hv] at this

end

section
variable {n : ℕ}

/-- C157: there are such ranges and scores. -/
theorem C157_results_exist (rd rm cv : ℝ → ℝ) (m : Mode) (eps : ℝ) (sl : Slope) (bn : ℝ) (hbn : 0 ≤ bn) (bs : List (BoxOf (Idx [n]) ℝ)) (G : KGraph n)
    (order : List ℕ) (ht : Topological G.parents order) (hG : ∀ v ∈ order, (G.op v).WF) (hl : ∀ v ∈ order, (G.op v).PieceLinear)
    (hp : ∀ v ∈ order, (G.op v).PlainRelu) (o : ℕ) :
    (∀ k, ∃ U L, G.RangeOver rd rm cv m eps sl bn bs order o k U L) ∧ ∀ T c, ∃ R, G.AdvOver rd rm cv m eps sl bn bs order o T c R := by
  have clone : ∀ b : BoxOf (Idx [n]) ℝ, ∃ f, G.RoundedBounds rm m eps sl bn (inputTensorsBox m b.1 b.2) order f := fun b =>
    (C157_exists rm m eps sl bn hbn (fun _ _ _ _ _ => 0) (fun _ _ _ _ _ => le_rfl) (inputTensorsBox m b.1 b.2) b.1 G order ht hG hl hp).1
  have all : ∀ {β : Type} {P : BoxOf (Idx [n]) ℝ → β → Prop}, (∀ b, ∃ r, P b r) → ∀ l : List (BoxOf (Idx [n]) ℝ), ∃ rs, List.Forall₂ P l rs := by
    intro β P h l
    induction l with
    | nil => exact ⟨[], .nil⟩
    | cons b l ih => exact (h b).elim fun r hr => ih.elim fun rs hrs => ⟨r :: rs, .cons hr hrs⟩
  have rng : ∀ (b : BoxOf (Idx [n]) ℝ) (g : Full (BoxOf (Idx [n]) ℝ) (Idx [n]) (Idx (G.sh o)) ℝ) k, ∃ U L, RangeRounded rd b g k U L := fun b g k => by
    obtain ⟨U, hU⟩ := exists_sum2 rd (fun i => b.2 i * max 0 (g.wu i k)) (fun i => b.1 i * min 0 (g.wu i k)) fun x y => rd (rd (x + y) + g.bu k)
    obtain ⟨L, hL⟩ := exists_sum2 rd (fun i => b.1 i * max 0 (g.wl i k)) (fun i => b.2 i * min 0 (g.wl i k)) fun x y => rd (rd (x + y) + g.bl k)
    exact ⟨U, L, hU, hL⟩
  constructor
  · intro k
    have : ∀ b : BoxOf (Idx [n]) ℝ, ∃ r : ℝ × ℝ, ∃ f, G.RoundedBounds rm m eps sl bn (inputTensorsBox m (castBox cv b).1 (castBox cv b).2) order f ∧
        RangeMode rd m b (f o) k r.1 r.2 := by
      intro b
      obtain ⟨f, hf⟩ := clone (castBox cv b)
      obtain ⟨U, L, h⟩ := rng b (f o) k
      cases m with
      | ibp => exact ⟨(_, _), f, hf, rfl, rfl⟩
      | affine => exact ⟨(U, L), f, hf, h⟩
      | hybrid => exact ⟨(_, _), f, hf, U, L, h, rfl, rfl⟩
    exact (all this bs).elim fun rs hrs => ⟨_, _, rs, hrs, rfl, rfl⟩
  · intro T c
    have : ∀ b : BoxOf (Idx [n]) ℝ, ∃ r : ℝ, ∃ f, G.RoundedBounds rm m eps sl bn (inputTensorsBox m (castBox cv b).1 (castBox cv b).2) order f ∧
        AdvMode rd m (castBox cv b) (f o) T c r := by
      intro b
      obtain ⟨f, hf⟩ := clone (castBox cv b)
      choose s hs using fun j => exists_sum2 rd (fun i => (castBox cv b).2 i * max 0 (rd ((f o).wu i j - (f o).wl i c)))
        (fun i => (castBox cv b).1 i * min 0 (rd ((f o).wu i j - (f o).wl i c))) fun x y => rd (rd (x + y) + rd ((f o).bu j - (f o).bl c))
      obtain ⟨R2, h2⟩ := Finite.exists_le s
      obtain ⟨R1, h1⟩ := Finite.exists_le fun j => rd ((f o).uc j - (f o).lc c)
      cases m with
      | ibp => exact ⟨R1, f, hf, fun j _ => h1 j⟩
      | affine => exact ⟨R2, f, hf, fun j _ => ⟨s j, hs j, h2 j⟩⟩
      | hybrid => exact ⟨_, f, hf, R1, R2, fun j _ => h1 j, fun j _ => ⟨s j, hs j, h2 j⟩, rfl⟩
    exact (all this bs).elim fun rs hrs => ⟨_, rs, hrs, rfl⟩

end

/-! ### The networks of the earlier properties -/

section
variable {ι κ : Type} [Fintype ι]

theorem AddMany.two {rd : ℝ → ℝ} {m : Mode} {f0 f1 g : Full (BoxOf ι ℝ) ι κ ℝ} (h : AddMany rd m f0 [f1] g) : AddMode rd m f0 f1 g := by
  obtain ⟨f0', fs', ⟨⟨x, a1, a2, a3, a4⟩, t0⟩, hs, rfl⟩ := h
  cases hs with
  | cons h1 hn =>
    cases hn
    obtain ⟨⟨-, b1, b2, b3, b4⟩, t1⟩ := h1
    refine ⟨x, fun _ => ⟨x, ?_, ?_, ?_, ?_⟩, fun hi => ⟨_, _, _, _, t0 hi, t1 hi, fun k => ⟨rfl, rfl⟩⟩⟩ <;>
      simp [plusRounded, a1, a2, a3, a4, b1, b2, b3, b4]

theorem AverageMany.two {rd : ℝ → ℝ} {m : Mode} {f0 f1 g : Full (BoxOf ι ℝ) ι κ ℝ} (h : AverageMany rd m f0 [f1] g) : AverageMode rd m f0 f1 g := by
  obtain ⟨s, hs, rfl⟩ := h
  obtain ⟨x, ha, hc⟩ := hs.two
  have e : ((([f1] : List (Full (BoxOf ι ℝ) ι κ ℝ)).length : ℝ) + 1) = 2 := by norm_num
  rw [e]
  refine ⟨x, fun hi => ⟨x, ?_, ?_, ?_, ?_⟩, fun hi => ?_⟩
  · intro i k; simp [overRounded, (ha hi).wu]
  · intro i k; simp [overRounded, (ha hi).wl]
  · intro k; simp [overRounded, (ha hi).bu]
  · intro k; simp [overRounded, (ha hi).bl]
  · obtain ⟨u0, l0, u1, l1, t0, t1, q⟩ := hc hi
    exact ⟨u0, l0, u1, l1, t0, t1, fun k => by simp [overRounded, (q k).1, (q k).2]⟩

theorem NaryOp.RoundedMode.two {rd : ℝ → ℝ} {m : Mode} {eps : ℝ} {op : NaryOp} {f0 f1 g : Full (BoxOf ι ℝ) ι κ ℝ} (h : op.RoundedMode rd m eps f0 [f1] g) :
    op.two.RoundedMode rd m eps f0 f1 g := by
  cases op with
  | add => exact AddMany.two h
  | average => exact AverageMany.two h
  | maximum => obtain ⟨a, ha, rfl⟩ := h; exact ha
  | minimum => obtain ⟨a, ⟨c, hc, rfl⟩, rfl⟩ := h; exact ⟨_, hc, rfl⟩
  | multiply => exact h.elim

theorem NaryOp.modeErr_two (m : Mode) (δ eps : ℝ) (n : ℕ) (op : NaryOp) (e0 e1 : ModeErr ℝ) : op.modeErr m δ eps n e0 [e1] = op.two.modeErr m δ eps n e0 e1 := by
  cases op with
  | average =>
    simp only [NaryOp.modeErr, NaryOp.two, MergeOp.modeErr, ModeErr.average, ModeErr.over, ModeErr.plus, ModeErr.read, List.map_cons, List.map_nil,
      List.foldl_cons, List.foldl_nil, List.length_cons, List.length_nil, ModeErr.mk.injEq]
    norm_num
    refine ⟨?_, ?_, ?_, ?_⟩ <;> ring
  | _ => rfl

end

section
variable {n : ℕ}

/-- C157: on the graphs that unfold into the networks of C153, the bounds of a node are bounds of the network and the errors are those of the network. -/
theorem C157_net (rd : ℝ → ℝ) (m : Mode) (δ eps : ℝ) (sl : Slope) (bn : ℝ) (inp : Full (BoxOf (Idx [n]) ℝ) (Idx [n]) (Idx [n]) ℝ) (X : Idx [n] → ℝ)
    (G : KGraph n) (order : List ℕ) (ht : Topological G.parents order) (N : (v : ℕ) → Net ℝ (Idx [n]) (Idx (G.sh v))) (hN : G.IsNet order N)
    (f : (v : ℕ) → Full (BoxOf (Idx [n]) ℝ) (Idx [n]) (Idx (G.sh v)) ℝ) (hf : G.RoundedBounds rd m eps sl bn inp order f)
    (e : (v : ℕ) → Idx (G.sh v) → ModeErr ℝ) (hE : G.IsErr m δ eps bn X order e) :
    ∀ v ∈ order, (N v).RoundedMode rd m eps sl bn inp (f v) ∧ e v = (N v).modeErr m δ eps bn X := by
  refine topological_induction G.parents ht _ fun v hv ih => ?_
  have q := hAll3_nodes (σ := List ℕ) (F := fun s => Full (BoxOf (Idx [n]) ℝ) (Idx [n]) (Idx s) ℝ) (G := fun s => Net ℝ (Idx [n]) (Idx s))
    (H := fun s => Idx s → ModeErr ℝ) (sh := G.sh) (P := fun _ f N e => N.RoundedMode rd m eps sl bn inp f ∧ e = N.modeErr m δ eps bn X) f N e (G.parents v) ih
  have key : ∀ {as : List (List ℕ)} {b : List ℕ} (o : KOp n as b) (fs : HList (fun s => Full (BoxOf (Idx [n]) ℝ) (Idx [n]) (Idx s) ℝ) as)
      (Ns : HList (fun s => Net ℝ (Idx [n]) (Idx s)) as) (es : HList (fun s => Idx s → ModeErr ℝ) as) (M : Net ℝ (Idx [n]) (Idx b))
      (g : Full (BoxOf (Idx [n]) ℝ) (Idx [n]) (Idx b) ℝ),
      HAll3 (fun _ f N e => N.RoundedMode rd m eps sl bn inp f ∧ e = N.modeErr m δ eps bn X) fs Ns es → o.IsNet Ns M →
      o.RoundedMode rd m eps sl bn inp fs g → M.RoundedMode rd m eps sl bn inp g ∧ o.modeErr m δ eps bn X es = M.modeErr m δ eps bn X := by
    intro as b o fs Ns es M g hq hM hg
    cases o with
    | input => obtain rfl := hM; exact ⟨hg, rfl⟩
    | layer l =>
      cases l with
      | lay l =>
        cases hq with
        | cons h _ => obtain rfl := hM; obtain ⟨h1, rfl⟩ := h; exact ⟨⟨_, h1, hg⟩, rfl⟩
      | _ => cases hq; exact hM.elim
    | merge op a r =>
      cases hq with
      | cons h t =>
        obtain ⟨hr, rfl⟩ := hM
        subst hr
        obtain ⟨h1, rfl⟩ := h
        obtain ⟨t1, t2⟩ := t.rep 1 _ _ _ ⟨0, by omega⟩
        change NaryOp.RoundedMode rd m eps op _ (List.ofFn _) g at hg
        refine ⟨⟨_, _, h1, t1, NaryOp.RoundedMode.two (by simpa using hg)⟩, ?_⟩
        funext k
        simp only [KOp.modeErr, List.ofFn_succ, List.ofFn_zero]
        rw [show (0 : Fin 1) = ⟨0, by omega⟩ from rfl, t2]
        exact op.modeErr_two m δ eps (Fintype.card (Idx [n])) _ _
    | subtract a =>
      cases hq with
      | cons h t =>
        cases t with
        | cons h' _ => obtain rfl := hM; obtain ⟨h1, rfl⟩ := h; obtain ⟨h2, rfl⟩ := h'; exact ⟨⟨_, _, h1, h2, hg⟩, rfl⟩
    | _ => exact hM.elim
  have := key (G.op v) _ _ _ _ _ q (hN v hv) (hf v hv)
  rw [← hE v hv] at this
  exact this

end

/-! ### Concrete graphs, in `float32` -/

/-- `Maximum([relu(x), x, relu(x)])`. -/
noncomputable def maxThreePlain : KGraph 1 where
  parents := fun v => match v with | 1 => [0] | 2 => [1, 0, 1] | _ => []
  sh := fun _ => [1]
  op := fun v => match v with
    | 0 => .input
    | 1 => .layer (.lay (.relu (fun _ => 1) fun _ => 1))
    | 2 => .merge .maximum [1] 2
    | _ + 3 => .input

theorem maxThreePlain_ready : maxThreePlain.PieceReady [0, 1, 2] 2 2 := by
  obtain ⟨h1, h2, h3⟩ := chain3_ok maxThreePlain.parents rfl rfl (by simp [maxThreePlain]) fun v p hp => by
    match v, hp with
    | 0, hp => simp [maxThreePlain] at hp
    | 1, hp => simp [maxThreePlain] at hp; omega
    | 2, hp => simp [maxThreePlain] at hp; omega
    | _ + 3, hp => simp [maxThreePlain] at hp
  refine ⟨⟨h1, by simp, h2, h3, fun v hv => ?_⟩, fun v hv => ?_⟩ <;> have : v = 0 ∨ v = 1 ∨ v = 2 := by simpa using hv
  · rcases this with rfl | rfl | rfl
    · exact trivial
    · exact fun _ => ⟨⟨zero_le_one, le_refl _⟩, zero_le_one, le_refl _⟩
    · exact trivial
  · rcases this with rfl | rfl | rfl
    · exact trivial
    · exact trivial
    · exact fun h => by cases h

theorem card_one : Fintype.card (Idx [1]) = 1 := by rw [← Fintype.card_congr (oneAxis 1), Fintype.card_fin]

/-- The slack of the range of that model over `[-1, 2]` in `float32`, with the three methods, is at most `1e-4`. -/
theorem maxThreePlain_slack (m : Mode) (e : (v : ℕ) → Idx (maxThreePlain.sh v) → ModeErr ℝ)
    (hE : maxThreePlain.IsErr m ((1 / 2) ^ 24) (1 / 10000000) 0 (fun _ => 2) [0, 1, 2] e) (k : Idx [1]) :
    ((e 2 k).cast ((1 / 2) ^ 24)).readSlack m ((1 / 2) ^ 24) 1 ≤ 1 / 10000 := by
  have z0 : e 0 = fun _ => ⟨2, 0, 2, 0⟩ := hE 0 (by simp)
  have z1 : e 1 = fun k => (e 0 k).relu m ((1 / 2) ^ 24) (1 / 10000000) (Fintype.card (Idx [1])) := hE 1 (by simp)
  have z2 : e 2 = fun k => MergeOp.maximum.modeErr m ((1 / 2) ^ 24) (1 / 10000000) (Fintype.card (Idx [1]))
      (MergeOp.maximum.modeErr m ((1 / 2) ^ 24) (1 / 10000000) (Fintype.card (Idx [1])) (e 1 k) (e 0 k)) (e 1 k) := hE 2 (by simp)
  rw [z2, z1, z0, card_one]
  cases m <;> norm_num [MergeOp.modeErr, ModeErr.add, ModeErr.relu, ModeErr.readSize, ModeErr.readSlack, ModeErr.cast]

open RealFormat in
/-- C157: the roundings of the theorems over the reals exist: rounding to nearest with 24 (`float32`) or 53 (`float64`) binary digits, which on rational numbers
is the one of C118. -/
theorem C157_format : Binary (RealFormat.roundNearest 53) ∧ RelError (RealFormat.roundNearest 53) ((1 / 2) ^ 24) ∧ RelError (RealFormat.roundNearest 24) ((1 / 2) ^ 24) ∧
    Conversion (RealFormat.roundNearest 24) ((1 / 2) ^ 24) ∧ ∀ p (x : ℚ), RealFormat.roundNearest p (x : ℝ) = (Decomon.roundNearest p x : ℚ) :=
  ⟨(nearest_format 53 (by norm_num)).1, nearest_finer (by norm_num), nearest_error 24, (nearest_format 24 (by norm_num)).2, nearest_rat⟩

open RealFormat in
theorem keeps (q : ℕ) : RealFormat.roundNearest (q + 1) 1 = 1 ∧ RealFormat.roundNearest (q + 1) 2 = 2 ∧ RealFormat.roundNearest (q + 1) (-1) = -1 ∧ RealFormat.roundNearest (q + 1) (-2) = -2 := by
  have h1 : RealFormat.roundNearest (q + 1) 1 = 1 := by simpa using nearest_pow q 0
  have h2 : RealFormat.roundNearest (q + 1) 2 = 2 := by simpa using nearest_pow q 1
  exact ⟨h1, h2, by rw [nearest_neg, h1], by rw [nearest_neg, h2]⟩

open RealFormat in
theorem peak_max : boxPeak (castBox (RealFormat.roundNearest 24) (onAxis (n := 1) (fun _ => -1, fun _ => 2))) = fun _ => 2 := by
  funext i
  simp only [boxPeak, castBox, onAxis, (keeps 23).2.1, (keeps 23).2.2.1]
  norm_num

open RealFormat in
/-- C157: `get_range_box` on `Maximum([relu(x), x, relu(x)])` over `[-1, 2]`, in `float32` with any number of sub-boxes: what Keras computes is in the range up to
`1e-4` and the error of its own computation. -/
example (m : Mode) (sl : Slope) (nSub : ℕ) (k : Idx [1]) (U L t : ℝ)
    (hr : maxThreePlain.RangeOver (RealFormat.roundNearest 53) (RealFormat.roundNearest 24) (RealFormat.roundNearest 24) m (1 / 10000000) sl 0
      ((refineRounded (RealFormat.roundNearest 53) nSub (fun _ => -1, fun _ => 2)).map onAxis) [0, 1, 2] 2 k U L)
    (c : (v : ℕ) → Idx (maxThreePlain.sh v) → CallErr ℝ)
    (hC : maxThreePlain.IsCallErr (roundError ((1 / 2) ^ 24) fun _ _ _ _ _ => 0) ((1 / 2) ^ 24) 1 (fun _ => 2) [0, 1, 2] c)
    (p : Fin 1 → ℝ) (hp : p ∈ Box (fun _ => -1) fun _ => (2 : ℝ)) (w : (v : ℕ) → Idx (maxThreePlain.sh v) → ℝ)
    (hw : maxThreePlain.RoundedValue (RealFormat.roundNearest 24) (fun _ _ _ _ _ => 0) (fun i => RealFormat.roundNearest 24 (p ((oneAxis 1).symm i))) [0, 1, 2] w)
    (ht : U + (1 / 10000 + (c 2 k).err) < t) : w 2 k < t := by
  obtain ⟨f1, f2, f3, f4, -⟩ := C157_format
  obtain ⟨e, hE⟩ := (C157_errors m ((1 / 2) ^ 24) (1 / 10000000) 0 (roundError ((1 / 2) ^ 24) fun _ _ _ _ _ => 0) 1
    (boxPeak (castBox (RealFormat.roundNearest 24) (onAxis (n := 1) (fun _ => -1, fun _ => 2)))) maxThreePlain [0, 1, 2] maxThreePlain_ready.sorted).1.1
  have q := (C157_range_certificate (n := 0) (by norm_num) (by norm_num) f2 f1 f3 f4 m (1 / 10000000) (by norm_num) sl 0 le_rfl (fun _ _ _ _ _ => 0)
    (fun _ _ _ _ _ _ _ _ => le_rfl) 1 one_pos nSub (fun _ => -1, fun _ => 2) (fun _ => by norm_num) (fun _ => ⟨(keeps 52).2.2.1, (keeps 52).2.1⟩) maxThreePlain
    [0, 1, 2] 2 2 maxThreePlain_ready (fun v hv => by
      have : v = 0 ∨ v = 1 ∨ v = 2 := by simpa using hv
      rcases this with rfl | rfl | rfl <;> trivial) e hE c (by rwa [peak_max]) k U L t hr p hp w hw).1
  rw [peak_max] at hE
  exact q (lt_of_le_of_lt (by gcongr; exact maxThreePlain_slack m e hE k) ht)

open RealFormat in
/-- C157: there are such ranges, and Keras computes such values. -/
example (m : Mode) (sl : Slope) (nSub : ℕ) (k : Idx [1]) (p : Idx [1] → ℝ) :
    (∃ U L, maxThreePlain.RangeOver (RealFormat.roundNearest 53) (RealFormat.roundNearest 24) (RealFormat.roundNearest 24) m (1 / 10000000) sl 0
      ((refineRounded (RealFormat.roundNearest 53) nSub (fun _ => -1, fun _ => 2)).map onAxis) [0, 1, 2] 2 k U L) ∧
    ∃ w, maxThreePlain.RoundedValue (RealFormat.roundNearest 24) (fun _ _ _ _ _ => 0) p [0, 1, 2] w := by
  have plain : ∀ v ∈ [0, 1, 2], (maxThreePlain.op v).PlainRelu := fun v hv => by
    have : v = 0 ∨ v = 1 ∨ v = 2 := by simpa using hv
    rcases this with rfl | rfl | rfl
    · trivial
    · exact fun _ => rfl
    · trivial
  exact ⟨(C157_results_exist _ _ _ m _ sl 0 le_rfl _ maxThreePlain [0, 1, 2] maxThreePlain_ready.sorted maxThreePlain_ready.layers maxThreePlain_ready.kinds plain
      2).1 k,
    (C157_exists _ m (1 / 10000000) sl 0 le_rfl _ (fun _ _ _ _ _ => le_rfl) (inputTensorsBox m p p) p maxThreePlain [0, 1, 2] maxThreePlain_ready.sorted
      maxThreePlain_ready.layers maxThreePlain_ready.kinds plain).2⟩

/-- `Concatenate([x, relu(x)])`. -/
noncomputable def joinPlain : KGraph 1 where
  parents := fun v => match v with | 1 => [0] | 2 => [0, 1] | _ => []
  sh := fun v => match v with | 2 => [2] | _ => [1]
  op := fun v => match v with
    | 0 => .input
    | 1 => .layer (.lay (.relu (fun _ => 1) fun _ => 1))
    | 2 => .concat [[1], [1]] ⟨0, by decide⟩ [2] fun k =>
        if (k ⟨0, by decide⟩ : ℕ) = 0 then ⟨⟨0, by decide⟩, fun i => ⟨0, by fin_cases i; decide⟩⟩ else ⟨⟨1, by decide⟩, fun i => ⟨0, by fin_cases i; decide⟩⟩
    | _ + 3 => .input

theorem joinPlain_ready : joinPlain.PieceReady [0, 1, 2] 2 2 := by
  obtain ⟨h1, h2, h3⟩ := chain3_ok joinPlain.parents rfl rfl (by simp [joinPlain]) fun v p hp => by
    match v, hp with
    | 0, hp => simp [joinPlain] at hp
    | 1, hp => simp [joinPlain] at hp; omega
    | 2, hp => simp [joinPlain] at hp; omega
    | _ + 3, hp => simp [joinPlain] at hp
  refine ⟨⟨h1, by simp, h2, h3, fun v hv => ?_⟩, fun v hv => ?_⟩ <;> have : v = 0 ∨ v = 1 ∨ v = 2 := by simpa using hv
  · rcases this with rfl | rfl | rfl
    · exact trivial
    · exact fun _ => ⟨⟨zero_le_one, le_refl _⟩, zero_le_one, le_refl _⟩
    · exact trivial
  · rcases this with rfl | rfl | rfl <;> exact trivial

/-- The slack of the score between the two outputs over `[-2, -1]` in `float32`, with the three methods, is at most `1e-4`. -/
theorem joinPlain_slack (m : Mode) (e : (v : ℕ) → Idx (joinPlain.sh v) → ModeErr ℝ)
    (hE : joinPlain.IsErr m ((1 / 2) ^ 24) (1 / 10000000) 0 (fun _ => 2) [0, 1, 2] e) :
    (e 2 (entryTwo 0)).score m ((1 / 2) ^ 24) 1 (e 2 (entryTwo 1)) ≤ 1 / 10000 := by
  have z0 : e 0 = fun _ => ⟨2, 0, 2, 0⟩ := hE 0 (by simp)
  have z1 : e 1 = fun k => (e 0 k).relu m ((1 / 2) ^ 24) (1 / 10000000) (Fintype.card (Idx [1])) := hE 1 (by simp)
  have z2 := hE 2 (by simp)
  have a0 : e 2 (entryTwo 0) = (e 0 fun i => ⟨0, by fin_cases i; decide⟩).read m ((1 / 2) ^ 24) (Fintype.card (Idx [1])) := by rw [z2]; rfl
  have a1 : e 2 (entryTwo 1) = (e 1 fun i => ⟨0, by fin_cases i; decide⟩).read m ((1 / 2) ^ 24) (Fintype.card (Idx [1])) := by rw [z2]; rfl
  rw [a0, a1, z1, z0, card_one]
  cases m <;> norm_num [ModeErr.score, ModeErr.read, ModeErr.relu, ModeErr.readSize, ModeErr.readSlack]

/-- Keras computes the two outputs without error. -/
theorem joinPlain_call (c : (v : ℕ) → Idx (joinPlain.sh v) → CallErr ℝ) (X : Idx [1] → ℝ)
    (hC : joinPlain.IsCallErr (roundError ((1 / 2) ^ 24) fun _ _ _ _ _ => 0) ((1 / 2) ^ 24) 1 X [0, 1, 2] c) (j : Fin 2) : (c 2 (entryTwo j)).err = 0 := by
  have z0 : c 0 = fun i => ⟨X i, 0⟩ := hC 0 (by simp)
  have z1 : c 1 = Lay.callErr (roundError ((1 / 2) ^ 24) fun _ _ _ _ _ => 0) 1 (.relu (fun _ => 1) fun _ => 1) (c 0) := hC 1 (by simp)
  have z2 := hC 2 (by simp)
  fin_cases j
  · have a0 : c 2 (entryTwo 0) = c 0 fun i => ⟨0, by fin_cases i; decide⟩ := by rw [z2]; rfl
    change (c 2 (entryTwo 0)).err = 0
    rw [a0, z0]
  · have a1 : c 2 (entryTwo 1) = c 1 fun i => ⟨0, by fin_cases i; decide⟩ := by rw [z2]; rfl
    change (c 2 (entryTwo 1)).err = 0
    rw [a1, z1, z0]
    simp [Lay.callErr, Lay.drift, roundError]

open RealFormat in
/-- C157: Keras computes both outputs of `Concatenate([x, relu(x)])` without error, whatever the point. -/
example (p : Idx [1] → ℝ) (y w : (v : ℕ) → Idx (joinPlain.sh v) → ℝ) (hy : joinPlain.IsValue p [0, 1, 2] y)
    (hw : joinPlain.RoundedValue (RealFormat.roundNearest 24) (fun _ _ _ _ _ => 0) p [0, 1, 2] w) (j : Fin 2) : w 2 (entryTwo j) = y 2 (entryTwo j) := by
  obtain ⟨c, hC⟩ := (C157_errors .ibp ((1 / 2) ^ 24) (1 / 10000000) 0 (roundError ((1 / 2) ^ 24) fun _ _ _ _ _ => 0) 1 (fun i => |p i|) joinPlain [0, 1, 2]
    joinPlain_ready.sorted).2.1
  have q := (C157_call (by norm_num) (nearest_error 24) (fun _ _ _ _ _ => 0) (fun _ _ _ _ _ _ _ _ => le_rfl) 1 one_pos joinPlain [0, 1, 2]
    joinPlain_ready.sorted joinPlain_ready.layers joinPlain_ready.kinds (fun v hv => by
      have : v = 0 ∨ v = 1 ∨ v = 2 := by simpa using hv
      rcases this with rfl | rfl | rfl <;> trivial) (fun i => |p i|) p (fun i => le_rfl) c hC y w hy hw 2 (by simp) (entryTwo j)).2
  rw [joinPlain_call c _ hC j] at q
  exact sub_eq_zero.1 (abs_nonpos_iff.1 q)

/-- `relu(x) + x`, one entry. -/
def reluSum : KGraph 1 where
  parents := fun v => match v with | 1 => [0] | 2 => [1, 0] | _ => []
  sh := fun _ => [1]
  op := fun v => match v with
    | 0 => .input
    | 1 => .layer (.lay (.relu (fun _ => 1) fun _ => 1))
    | 2 => .merge .add [1] 1
    | _ + 3 => .input

/-- Its expressions. -/
def reluSumNet : ℕ → Net ℝ (Idx [1]) (Idx [1])
  | 1 => .layer .input (.relu (fun _ => 1) fun _ => 1)
  | 2 => .merge .add (.layer .input (.relu (fun _ => 1) fun _ => 1)) .input
  | _ => .input

/-- C157: `relu(x) + x` as a graph has bounds in rounded arithmetic, they are those of the network, and so are the errors. -/
example (rd : ℝ → ℝ) (m : Mode) (δ eps : ℝ) (sl : Slope) (inp : Full (BoxOf (Idx [1]) ℝ) (Idx [1]) (Idx [1]) ℝ) (X : Idx [1] → ℝ) :
    ∃ f : ℕ → Full (BoxOf (Idx [1]) ℝ) (Idx [1]) (Idx [1]) ℝ, reluSum.RoundedBounds rd m eps sl 0 inp [0, 1, 2] f ∧
      (reluSumNet 2).RoundedMode rd m eps sl 0 inp (f 2) ∧
      ∀ e : ℕ → Idx [1] → ModeErr ℝ, reluSum.IsErr m δ eps 0 X [0, 1, 2] e → e 2 = (reluSumNet 2).modeErr m δ eps 0 X := by
  have ht := (chain3_ok reluSum.parents rfl rfl (by simp [reluSum]) fun v p hp => by
    match v, hp with
    | 0, hp => simp [reluSum] at hp
    | 1, hp => simp [reluSum] at hp; omega
    | 2, hp => simp [reluSum] at hp; omega
    | _ + 3, hp => simp [reluSum] at hp).1
  have all : ∀ v ∈ [0, 1, 2], (reluSum.op v).WF ∧ (reluSum.op v).PieceLinear ∧ (reluSum.op v).PlainRelu ∧
      (reluSum.op v).IsNet (HList.ofNodes reluSumNet (reluSum.parents v)) (reluSumNet v) := fun v hv => by
    have : v = 0 ∨ v = 1 ∨ v = 2 := by simpa using hv
    rcases this with rfl | rfl | rfl
    · exact ⟨trivial, trivial, trivial, rfl⟩
    · exact ⟨fun _ => ⟨⟨zero_le_one, le_refl _⟩, zero_le_one, le_refl _⟩, trivial, fun _ => rfl, rfl⟩
    · exact ⟨trivial, by simp [KOp.PieceLinear, reluSum], trivial, rfl, rfl⟩
  obtain ⟨f, hf⟩ := (C157_exists rd m eps sl 0 le_rfl (fun _ _ _ _ _ => 0) (fun _ _ _ _ _ => le_rfl) inp (fun _ => 0) reluSum [0, 1, 2] ht
    (fun v hv => (all v hv).1) (fun v hv => (all v hv).2.1) fun v hv => (all v hv).2.2.1).1
  obtain ⟨e, hE⟩ := (C157_errors m δ eps 0 (roundError δ fun _ _ _ _ _ => 0) 1 X reluSum [0, 1, 2] ht).1.1
  have q := fun e hE => C157_net rd m δ eps sl 0 inp X reluSum [0, 1, 2] ht reluSumNet (fun v hv => (all v hv).2.2.2) f hf e hE 2 (by simp)
  exact ⟨f, hf, (q e hE).1, fun e hE => (q e hE).2⟩

open RealFormat in
theorem peak_join : boxPeak (castBox (RealFormat.roundNearest 24) (onAxis (n := 1) (fun _ => -2, fun _ => -1))) = fun _ => 2 := by
  funext i
  simp only [boxPeak, castBox, onAxis, (keeps 23).2.2.1, (keeps 23).2.2.2]
  norm_num

open RealFormat in
/-- C157: `get_adv_box` on `Concatenate([x, relu(x)])` over `[-2, -1]`, in `float32` with any number of sub-boxes: a score below `-1e-4` proves that Keras computes
a smaller first output. -/
example (m : Mode) (sl : Slope) (nSub : ℕ) (R : ℝ)
    (hR : joinPlain.AdvOver (RealFormat.roundNearest 53) (RealFormat.roundNearest 24) (RealFormat.roundNearest 24) m (1 / 10000000) sl 0
      ((refineRounded (RealFormat.roundNearest 53) nSub (fun _ => -2, fun _ => -1)).map onAxis) [0, 1, 2] 2 {entryTwo 0} (entryTwo 1) R)
    (hc : R < -(1 / 10000)) (p : Fin 1 → ℝ) (hp : p ∈ Box (fun _ => -2) fun _ => (-1 : ℝ)) (w : (v : ℕ) → Idx (joinPlain.sh v) → ℝ)
    (hw : joinPlain.RoundedValue (RealFormat.roundNearest 24) (fun _ _ _ _ _ => 0) (fun i => RealFormat.roundNearest 24 (p ((oneAxis 1).symm i))) [0, 1, 2] w) :
    w 2 (entryTwo 0) < w 2 (entryTwo 1) := by
  obtain ⟨f1, f2, f3, f4, -⟩ := C157_format
  obtain ⟨⟨⟨e, hE⟩, -⟩, ⟨c, hC⟩, -⟩ := C157_errors m ((1 / 2) ^ 24) (1 / 10000000) 0 (roundError ((1 / 2) ^ 24) fun _ _ _ _ _ => 0) 1
    (boxPeak (castBox (RealFormat.roundNearest 24) (onAxis (n := 1) (fun _ => -2, fun _ => -1)))) joinPlain [0, 1, 2] joinPlain_ready.sorted
  refine C157_adv_certificate (n := 0) (by norm_num) (by norm_num) f2 f1 f3 f4 m (1 / 10000000) (by norm_num) sl 0 le_rfl (fun _ _ _ _ _ => 0)
    (fun _ _ _ _ _ _ _ _ => le_rfl) 1 one_pos nSub (fun _ => -2, fun _ => -1) (fun _ => by norm_num) (fun _ => ⟨(keeps 52).2.2.2, (keeps 52).2.2.1⟩) joinPlain
    [0, 1, 2] 2 2 joinPlain_ready (fun v hv => by
      have : v = 0 ∨ v = 1 ∨ v = 2 := by simpa using hv
      rcases this with rfl | rfl | rfl <;> trivial) e hE c hC {entryTwo 0} (entryTwo 1) R hR (fun j hj => ?_) p hp w hw (entryTwo 0) rfl
  obtain rfl := hj
  rw [joinPlain_call c _ hC 0, joinPlain_call c _ hC 1]
  rw [peak_join] at hE
  have := joinPlain_slack m e hE
  norm_num at hc this ⊢
  linarith

end Decomon
