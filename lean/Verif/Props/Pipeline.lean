import Verif.Lemmas.Pipeline

/-! Property C131: `clone` with a forward method on a graph of layers, with the lists of tensors that travel between the nodes. -/

namespace Decomon

section
variable {X : Type} {n : ℕ}

/-- C131: on a graph whose nodes all lead to the output, the conversion raises nothing, each node is computed from the tensors of its own
parents, in the order of its arguments, and the outputs are those of the output node, put in the final mode. -/
theorem C131_convert (D : PertDomain X (Idx [n]) ℝ) (m mTo : Mode) (eps : ℝ) (slope : Slope) (inp : Full X (Idx [n]) (Idx [n]) ℝ) (G : KGraph n)
    (M fuel : ℕ) (order : List ℕ) (ht : Topological G.parents order) (nameOf : ℕ → String) (o : ℕ) (ho : o ∈ order)
    (hlong : LongestFromInput G.parents o M) (hreach : ∀ v ∈ order, ∃ k, Walk G.parents v o k) :
    ∃ f, G.IsBounds D m eps slope inp order f ∧
      G.convert D m mTo eps slope inp M (fuel + 1) order nameOf o = .ok ((convert2Mode D m mTo (f o)).toList mTo) := by
  have : ∀ v, Nonempty (Full X (Idx [n]) (Idx (G.sh v)) ℝ) := fun v =>
    ⟨⟨inp.x, fun _ => 0, fun _ _ => 0, fun _ => 0, fun _ => 0, fun _ _ => 0, fun _ => 0, fun _ => 0, fun _ => 0⟩⟩
  obtain ⟨f, hf⟩ := exists_nodes G.parents (T := fun v => Full X (Idx [n]) (Idx (G.sh v)) ℝ)
    (fun v f => ((G.op v).forward D m eps slope inp (HList.ofNodes f (G.parents v))).carried m inp.x)
    (fun v g g' h => by
      simp only [ofNodes_congr (F := fun s => Full X (Idx [n]) (Idx s) ℝ) (sh := G.sh) g g' _ h]) ht
  refine ⟨f, hf, ?_⟩
  have hc : ∀ v ∈ order, (f v).carried m inp.x = f v := fun v hv => by rw [hf v hv, carried_idem]
  have e := convertFunctionalE_ok G.parents (fun v => (G.op v).call D m eps slope inp) M fuel order ht nameOf o ho hlong hreach (inp.toList m)
    (fun v => (f v).toList m) (fun v hv h => ?_) (fun v hv _ => ?_)
  · simp only [KGraph.convert, e, Except.bind, readList_toList, Except.map, hc o ho]
  · simp only [hf v hv, toList_carried]
    exact KOp.forward_nil D m eps slope inp _ (by rw [h]; rfl) _
  · rw [KOp.call_nodes, ofNodes_congr (F := fun s => Full X (Idx [n]) (Idx s) ℝ) (sh := G.sh) _ f _ fun w hw => hc w (topological_parent_mem G.parents ht hv hw)]
    conv_rhs => rw [hf v hv, toList_carried]

/-- The tensors of every node hold, and describe the domain of the inputs. -/
theorem bounds_valid (D : PertDomain X (Idx [n]) ℝ) (m : Mode) (eps : ℝ) (he : 0 < eps) (slope : Slope) (inp : Full X (Idx [n]) (Idx [n]) ℝ)
    (R : Set (Idx [n] → ℝ)) (hD : D.Sound inp.x R) (G : KGraph n) (order : List ℕ) (ht : Topological G.parents order)
    (hG : ∀ v ∈ order, (G.op v).WF) (f : (v : ℕ) → Full X (Idx [n]) (Idx (G.sh v)) ℝ) (hf : G.IsBounds D m eps slope inp order f)
    (hg : ∀ v ∈ order, (G.op v).Good D m eps (HList.ofNodes f (G.parents v))) (p : Idx [n] → ℝ) (hp : p ∈ R) (hi : Valid m false inp p p)
    (y : (v : ℕ) → Idx (G.sh v) → ℝ) (hy : G.IsValue p order y) : ∀ v ∈ order, (f v).x = inp.x ∧ Valid m false (f v) p (y v) := by
  refine topological_induction G.parents ht _ fun v hv ih => ?_
  have h := hAll_nodes (σ := List ℕ) (F := fun s => Full X (Idx [n]) (Idx s) ℝ) (G := fun s => Idx s → ℝ) (sh := G.sh) 
    (P := fun _ f y => f.x = inp.x ∧ Valid m false f p y) f y (G.parents v) ih
  have hx := hAll_nodes (σ := List ℕ) (F := fun s => Full X (Idx [n]) (Idx s) ℝ) (G := fun s => Idx s → ℝ) (sh := G.sh) 
    (P := fun _ f _ => f.x = inp.x) f y (G.parents v) fun w hw => (ih w hw).1
  rw [hf v hv, hy v hv]
  exact ⟨carried_x (KOp.forward_x D m eps slope inp _ _ _ hx),
    carried_valid (KOp.forward_valid D m eps he slope inp R hD p hp hi _ (hG v hv) _ _ (hg v hv) h)⟩

/-- C131: the tensors returned by the converted model bound the output of the Keras model at every point of the region.  Missing: the graphs
with a node whose inputs are not `KOp.Good`, for which the claim is false; from ibp to another mode (C29). -/
theorem C131_sound_partial (D : PertDomain X (Idx [n]) ℝ) (m mTo : Mode) (hm : m ≠ .ibp ∨ mTo = .ibp) (eps : ℝ) (he : 0 < eps) (slope : Slope)
    (inp : Full X (Idx [n]) (Idx [n]) ℝ) (R : Set (Idx [n] → ℝ)) (hD : D.Sound inp.x R) (hi : ∀ p ∈ R, Valid m false inp p p) (G : KGraph n)
    (M fuel : ℕ) (order : List ℕ) (ht : Topological G.parents order) (nameOf : ℕ → String) (o : ℕ) (ho : o ∈ order)
    (hlong : LongestFromInput G.parents o M) (hreach : ∀ v ∈ order, ∃ k, Walk G.parents v o k) (hG : ∀ v ∈ order, (G.op v).WF)
    (hg : ∀ f, G.IsBounds D m eps slope inp order f → ∀ v ∈ order, (G.op v).Good D m eps (HList.ofNodes f (G.parents v))) :
    ∃ r : Full X (Idx [n]) (Idx (G.sh o)) ℝ, G.convert D m mTo eps slope inp M (fuel + 1) order nameOf o = .ok (r.toList mTo) ∧
      ∀ p ∈ R, ∀ y, G.IsValue p order y → Valid mTo false r p (y o) := by
  obtain ⟨f, hf, e⟩ := C131_convert D m mTo eps slope inp G M fuel order ht nameOf o ho hlong hreach
  refine ⟨_, e, fun p hp y hy => ?_⟩
  obtain ⟨hx, v⟩ := bounds_valid D m eps he slope inp R hD G order ht hG f hf (hg f hf) p hp (hi p hp) y hy o ho
  exact C29_convert2Mode_valid D m mTo hm (f o) R (by rw [hx]; exact hD) p hp _ v

/-- C131 over a box. -/
theorem C131_box_partial (m mTo : Mode) (hm : m ≠ .ibp ∨ mTo = .ibp) (eps : ℝ) (he : 0 < eps) (slope : Slope) (b : BoxOf (Idx [n]) ℝ)
    (G : KGraph n) (M fuel : ℕ) (order : List ℕ) (ht : Topological G.parents order) (nameOf : ℕ → String) (o : ℕ) (ho : o ∈ order)
    (hlong : LongestFromInput G.parents o M) (hreach : ∀ v ∈ order, ∃ k, Walk G.parents v o k) (hG : ∀ v ∈ order, (G.op v).WF)
    (hg : ∀ f, G.IsBounds boxDomain m eps slope (inputTensorsBox m b.1 b.2) order f →
      ∀ v ∈ order, (G.op v).Good boxDomain m eps (HList.ofNodes f (G.parents v))) :
    ∃ r : Full (BoxOf (Idx [n]) ℝ) (Idx [n]) (Idx (G.sh o)) ℝ,
      G.convert boxDomain m mTo eps slope (inputTensorsBox m b.1 b.2) M (fuel + 1) order nameOf o = .ok (r.toList mTo) ∧
      ∀ p ∈ Box b.1 b.2, ∀ y, G.IsValue p order y → Valid mTo false r p (y o) :=
  C131_sound_partial boxDomain m mTo hm eps he slope _ (Box b.1 b.2) (boxDomain_sound _ _) (fun p hp => C27_input_box m b.1 b.2 p hp) G M fuel order ht
    nameOf o ho hlong hreach hG hg

/-- C131 over an `Lp` ball. -/
theorem C131_ball_partial [Nonempty (Idx [n])] (m mTo : Mode) (hm : m ≠ .ibp ∨ mTo = .ibp) (leps : ℝ) (he : 0 < leps) (slope : Slope) (eps : ℝ) (q : PVal)
    (z : Idx [n] → ℝ) (G : KGraph n) (M fuel : ℕ) (order : List ℕ) (ht : Topological G.parents order) (nameOf : ℕ → String) (o : ℕ)
    (ho : o ∈ order) (hlong : LongestFromInput G.parents o M) (hreach : ∀ v ∈ order, ∃ k, Walk G.parents v o k)
    (hG : ∀ v ∈ order, (G.op v).WF) (hg : ∀ f, G.IsBounds (ballDomain eps q) m leps slope (inputTensorsBall m eps q z) order f →
      ∀ v ∈ order, (G.op v).Good (ballDomain eps q) m leps (HList.ofNodes f (G.parents v))) :
    ∃ r : Full (Idx [n] → ℝ) (Idx [n]) (Idx (G.sh o)) ℝ,
      G.convert (ballDomain eps q) m mTo leps slope (inputTensorsBall m eps q z) M (fuel + 1) order nameOf o = .ok (r.toList mTo) ∧
      ∀ p ∈ LpBall z eps q, ∀ y, G.IsValue p order y → Valid mTo false r p (y o) :=
  C131_sound_partial (ballDomain eps q) m mTo hm leps he slope _ (LpBall z eps q) (ball_input_sound m eps q z)
    (fun p hp => C27_input_ball m eps q z p hp) G M fuel order ht nameOf o ho hlong hreach hG hg

/-- C131 in ibp mode, over a box: no graph is excluded.  The converted model returns two tensors of the shape of the output. -/
theorem C131_ibp_box (eps : ℝ) (he : 0 < eps) (slope : Slope) (b : BoxOf (Idx [n]) ℝ) (G : KGraph n) (M fuel : ℕ) (order : List ℕ)
    (ht : Topological G.parents order) (nameOf : ℕ → String) (o : ℕ) (ho : o ∈ order) (hlong : LongestFromInput G.parents o M)
    (hreach : ∀ v ∈ order, ∃ k, Walk G.parents v o k) (hG : ∀ v ∈ order, (G.op v).WF) :
    ∃ u l, G.convert boxDomain .ibp .ibp eps slope (inputTensorsBox .ibp b.1 b.2) M (fuel + 1) order nameOf o =
        .ok [.vec (G.sh o) u, .vec (G.sh o) l] ∧
      ∀ p ∈ Box b.1 b.2, ∀ y, G.IsValue p order y → ∀ k, l k ≤ y o k ∧ y o k ≤ u k := by
  obtain ⟨r, e, h⟩ := C131_box_partial .ibp .ibp (.inr rfl) eps he slope b G M fuel order ht nameOf o ho hlong hreach hG
    fun _ _ v _ => KOp.good_ibp boxDomain eps (G.op v) _
  exact ⟨r.uc, r.lc, e, fun p hp y hy k => (h p hp y hy).const rfl k⟩

/-- The tensors of every node on a single point. -/
theorem bounds_exact (m : Mode) (eps : ℝ) (slope : Slope) (p : Idx [n] → ℝ) (G : KGraph n) (order : List ℕ) (ht : Topological G.parents order)
    (f : (v : ℕ) → Full (BoxOf (Idx [n]) ℝ) (Idx [n]) (Idx (G.sh v)) ℝ) (hf : G.IsBounds boxDomain m eps slope (inputTensorsBox m p p) order f)
    (hs : getAffine m = true → ∀ v ∈ order, (G.op v).NoSoftplus) (y : (v : ℕ) → Idx (G.sh v) → ℝ) (hy : G.IsValue p order y) :
    ∀ v ∈ order, (f v).x = (p, p) ∧ ExactAt m (f v) p (y v) := by
  have hD := boxDomain_point p
  refine topological_induction G.parents ht _ fun v hv ih => ?_
  have h := hAll_nodes (σ := List ℕ) (F := fun s => Full (BoxOf (Idx [n]) ℝ) (Idx [n]) (Idx s) ℝ) (G := fun s => Idx s → ℝ) (sh := G.sh) 
    (P := fun _ f y => f.x = (p, p) ∧ ExactAt m f p y) f y (G.parents v) ih
  have hx := hAll_nodes (σ := List ℕ) (F := fun s => Full (BoxOf (Idx [n]) ℝ) (Idx [n]) (Idx s) ℝ) (G := fun s => Idx s → ℝ) (sh := G.sh) 
    (P := fun _ f _ => f.x = (p, p)) f y (G.parents v) fun w hw => (ih w hw).1
  rw [hf v hv, hy v hv]
  exact ⟨carried_x (KOp.forward_x boxDomain m eps slope (inputTensorsBox m p p) _ _ _ hx),
    carried_exact (KOp.forward_exact boxDomain m eps slope (inputTensorsBox m p p) p hD (inputTensorsBox_exact m p) _ (fun ha => hs ha v hv) _ _ h)⟩

/-- The change of mode on a single point. -/
theorem convert2Mode_exact (m mTo : Mode) (hm : m ≠ .ibp ∨ mTo = .ibp) {κ : Type} (f : Full (BoxOf (Idx [n]) ℝ) (Idx [n]) κ ℝ) (p : Idx [n] → ℝ)
    (hD : (boxDomain : PertDomain _ (Idx [n]) ℝ).Point f.x p) (y : κ → ℝ) (v : ExactAt m f p y) : ExactAt mTo (convert2Mode boxDomain m mTo f) p y := by
  have t := tighten_exact boxDomain m (decide (m = .affine ∧ mTo ≠ .affine)) (decide (m = .hybrid ∧ mTo ≠ .affine)) f p hD _ v
  refine ⟨fun hi k => ?_, fun ha k => ?_⟩
  · simp only [convert2Mode, hi, if_true]
    cases m
    · exact t.1.const rfl k
    · exact t.2 (by cases mTo <;> simp_all [getIbp]) k
    · exact t.1.const rfl k
  · simp only [convert2Mode, ha, if_true]
    refine t.1.aff ?_ k
    cases m
    · cases mTo <;> simp_all [getAffine]
    · rfl
    · rfl

/-- C131 on a single point: every bound that the converted model returns is the output of the Keras model, unless the graph contains
softplus. -/
theorem C131_point (m mTo : Mode) (hm : m ≠ .ibp ∨ mTo = .ibp) (eps : ℝ) (slope : Slope) (p : Idx [n] → ℝ) (G : KGraph n) (M fuel : ℕ)
    (order : List ℕ) (ht : Topological G.parents order) (nameOf : ℕ → String) (o : ℕ) (ho : o ∈ order) (hlong : LongestFromInput G.parents o M)
    (hreach : ∀ v ∈ order, ∃ k, Walk G.parents v o k) (hs : getAffine m = true → ∀ v ∈ order, (G.op v).NoSoftplus) :
    ∃ r : Full (BoxOf (Idx [n]) ℝ) (Idx [n]) (Idx (G.sh o)) ℝ,
      G.convert boxDomain m mTo eps slope (inputTensorsBox m p p) M (fuel + 1) order nameOf o = .ok (r.toList mTo) ∧
      ∀ y, G.IsValue p order y → ExactAt mTo r p (y o) := by
  obtain ⟨f, hf, e⟩ := C131_convert boxDomain m mTo eps slope (inputTensorsBox m p p) G M fuel order ht nameOf o ho hlong hreach
  refine ⟨_, e, fun y hy => ?_⟩
  obtain ⟨hx, v⟩ := bounds_exact m eps slope p G order ht f hf hs y hy o ho
  exact convert2Mode_exact m mTo hm (f o) p (by rw [hx]; exact boxDomain_point p) _ v

/-- C131: a layer called on tensors of another shape than its own raises `ValueError`, in every mode. -/
theorem C131_shapes {X ι : Type} (x0 : X) (m : Mode) {s s' : List ℕ} (h : s' ≠ s) (f : Full X ι (Idx s') ℝ) :
    readList x0 m s (f.toList m) = .error .valueError := by
  cases m <;> simp [readList, readNine, Full.toList, Full.toNine, extractForMode, nbTensors, fullInputsList, Ten.toVec, Ten.toMat, Ten.toDom,
    Except.bind, bind, h]

/-- The tensors of a node of shape `(3,)` given to a layer of shape `(2,)`. -/
example (f : Full Unit (Idx [1]) (Idx [3]) ℝ) : readList () .hybrid [2] (f.toList .hybrid) = .error .valueError := C131_shapes () .hybrid (by decide) f

/-- C131: the Keras graph has a value at every point, and only one. -/
theorem C131_value (G : KGraph n) (order : List ℕ) (ht : Topological G.parents order) (p : Idx [n] → ℝ) :
    (∃ y, G.IsValue p order y) ∧ ∀ y y', G.IsValue p order y → G.IsValue p order y' → ∀ v ∈ order, y v = y' v := by
  constructor
  · exact exists_nodes G.parents (T := fun v => Idx (G.sh v) → ℝ) (fun v y => (G.op v).eval p (HList.ofNodes y (G.parents v)))
      (fun v g g' h => by simp only [ofNodes_congr (F := fun s => Idx s → ℝ) (sh := G.sh) g g' _ h]) ht
  · intro y y' h h'
    refine topological_induction G.parents ht _ fun v hv ih => ?_
    rw [h v hv, h' v hv, ofNodes_congr (F := fun s => Idx s → ℝ) (sh := G.sh) y y' _ ih]

end

/-! ### A concrete graph -/

/-- `exp(x) * x * exp(x)`: the node of the exponential has one parent and is used twice by the product. -/
def expGraph : KGraph 1 where
  parents := fun v => match v with | 1 => [0] | 2 => [1, 0, 1] | _ => []
  sh := fun _ => [1]
  op := fun v => match v with
    | 0 => .input
    | 1 => .layer (.act .exponential)
    | 2 => .merge .multiply [1] 2
    | _ + 3 => .input

/-- The hypotheses of C131 on the shape of the graph hold for it. -/
theorem expGraph_ok : Topological expGraph.parents [0, 1, 2] ∧ LongestFromInput expGraph.parents 2 2 ∧
    ∀ v ∈ [0, 1, 2], ∃ k, Walk expGraph.parents v 2 k :=
  chain3_ok expGraph.parents rfl rfl (by simp [expGraph]) fun v p hp => by
    match v, hp with
    | 0, hp => simp [expGraph] at hp
    | 1, hp => simp [expGraph] at hp; omega
    | 2, hp => simp [expGraph] at hp; omega
    | _ + 3, hp => simp [expGraph] at hp

/-- Its value. -/
example (p : Idx [1] → ℝ) : expGraph.IsValue p [0, 1, 2]
    (fun v => match v with | 0 => p | 1 => fun k => Real.exp (p k) | 2 => fun k => Real.exp (p k) * (p k * Real.exp (p k)) | _ + 3 => p) := by
  intro v hv
  have : v = 0 ∨ v = 1 ∨ v = 2 := by simpa using hv
  rcases this with rfl | rfl | rfl
  · rfl
  · rfl
  · funext k
    change _ = Real.exp (p k) * ∏ i : Fin 2, HList.rep (s := [1]) 2 (.cons p (.cons (fun k => Real.exp (p k)) .nil) : HList (fun s => Idx s → ℝ) [[1], [1]]) i k
    rw [Fin.prod_univ_two]
    rfl

/-- The exponential of it is given the interval `[1, 2]`. -/
theorem expGraph_good (k : Idx [1]) : SmoothAct.GoodOn (1 / 10000000)
    (((inputTensorsBox .hybrid (fun _ : Idx [1] => (1 : ℝ)) (fun _ => 2)).tighten boxDomain .hybrid true true).lc k)
    (((inputTensorsBox .hybrid (fun _ : Idx [1] => (1 : ℝ)) (fun _ => 2)).tighten boxDomain .hybrid true true).uc k) .exponential := by
  obtain ⟨t1, t2⟩ := input_tightened .hybrid true (.inr rfl) (fun _ : Idx [1] => (1 : ℝ), fun _ => 2) k
  rw [t1, t2]
  exact .inr (by norm_num)

/-- The conversion of it over `[1, 2]`, in hybrid mode, ended in ibp mode. -/
example : ∃ r : Full (BoxOf (Idx [1]) ℝ) (Idx [1]) (Idx [1]) ℝ,
    expGraph.convert boxDomain .hybrid .ibp (1 / 10000000) .vSlope (inputTensorsBox .hybrid (fun _ => 1) (fun _ => 2)) 2 3 [0, 1, 2]
      (fun v => toString v) 2 = .ok (r.toList .ibp) ∧
    ∀ p ∈ Box (fun _ => (1 : ℝ)) (fun _ => 2), ∀ y, expGraph.IsValue p [0, 1, 2] y → Valid .ibp false r p (y 2) := by
  obtain ⟨h1, h2, h3⟩ := expGraph_ok
  refine C131_box_partial .hybrid .ibp (.inl (by decide)) _ (by norm_num) .vSlope (fun _ => 1, fun _ => 2) expGraph 2 2 [0, 1, 2] h1 _ 2 (by simp) h2 h3
    (fun v hv => ?_) fun f hf v hv => ?_
  · have : v = 0 ∨ v = 1 ∨ v = 2 := by simpa using hv
    rcases this with rfl | rfl | rfl <;> exact trivial
  · have : v = 0 ∨ v = 1 ∨ v = 2 := by simpa using hv
    rcases this with rfl | rfl | rfl
    · exact trivial
    · intro _ k
      have e : f 0 = inputTensorsBox .hybrid (fun _ => 1) (fun _ => 2) := by
        rw [hf 0 (by simp)]
        simp [expGraph, KOp.forward, Full.carried, getAffine, getIbp, inputTensorsBox]
      change SmoothAct.GoodOn _ (((f 0).tighten _ _ _ _).lc k) (((f 0).tighten _ _ _ _).uc k) _
      rw [e]
      exact expGraph_good k
    · exact trivial

end Decomon
