import Verif.Lemmas.CrownGraph
import Verif.Props.Pipeline
import Verif.Lemmas.FoldCrown

/-! Property C139: `clone` with a backward method on a graph of layers, with its dictionaries and the lists of tensors. -/

namespace Decomon

section
variable {X : Type} {n : ℕ}

theorem crown_x (D : PertDomain X (Idx [n]) ℝ) (stack : (Idx [n] → ℝ) → (Idx [n] → ℝ) → X) (m : Mode) (inp : Full X (Idx [n]) (Idx [n]) ℝ)
    {c : List ℕ} (b : Back (Idx [n]) (Idx c) ℝ) : (convert2BackwardMode D stack m inp b).x = inp.x := by
  by_cases h : m = .ibp <;> simp [convert2BackwardMode, h]

/-- The call of `crown_model`, once the `forward_map` is known. -/
theorem crown_ok (D : PertDomain X (Idx [n]) ℝ) (stack : (Idx [n] → ℝ) → (Idx [n] → ℝ) → X) (m : Mode) (eps : ℝ) (slope : Slope) (uf : Bool)
    (inp : Full X (Idx [n]) (Idx [n]) ℝ) (G : KGraph n) (M fuel : ℕ) (order : List ℕ) (ht : Topological G.parents order)
    (hf : order.length ≤ fuel + 1) (nameOf : ℕ → String) (outs : List ℕ) (bounds : List (BTen X)) (hbo : bounds = [] ∨ outs.length = 1)
    (ho : ∀ o ∈ outs, o ∈ order) (hname : ∀ o ∈ outs, ∀ o' ∈ outs, nameOf o = nameOf o' → o = o')
    (hlong : ∀ o ∈ outs, LongestFromInput G.parents o M) (hreach : ∀ v ∈ order, ∃ o ∈ outs, ∃ k, Walk G.parents v o k)
    (hb : ∀ v ∈ order, (G.op v).HasBack) (fw : (v : ℕ) → Option (Full X (Idx [n]) (Idx (G.sh v)) ℝ))
    (hfw : G.IsForward D m eps slope uf inp order fw) (w : (v : ℕ) → GNode n (G.sh v)) (hw : G.IsCrown D stack m eps slope inp order fw w)
    (S : ℕ → List (BTen X)) (hS : ∀ o ∈ outs,
      (bounds = [] ∧ ∃ R, (w o).first = .ok R ∧ S o = ((convert2BackwardMode D stack m inp R).toList m).map Ten.toB) ∨
      ∃ c B R, bounds = B.toB ∧ (w o).next c B = .ok R ∧ S o = ((convert2BackwardMode D stack m inp R).toList m).map Ten.toB) :
    G.crown D stack m eps slope uf inp M (fuel + 1) order nameOf outs bounds = .ok (outs.flatMap S) := by
  obtain ⟨I, N, hN, h0, hI0, hI1, hwalk⟩ := crown_walked D stack m eps slope inp G order ht fw (isForward_carried hfw) w hw hb
  have htot := crown_total D stack m eps slope inp G order ht fw (isForward_carried hfw) w hw hb
  have key : ∃ fm, (if uf then G.forwardMap D m eps slope inp M (fuel + 1) order else .ok fun _ => none) = .ok fm ∧
      ∀ v ∈ order, fm v = (fw v).map fun f => (f.toList m).map Ten.toB := by
    cases uf with
    | false => exact ⟨_, rfl, fun v _ => by rw [hfw v]; rfl⟩
    | true =>
      obtain ⟨f, hf, h⟩ := hfw
      obtain ⟨fm, e, h'⟩ := forwardMap_ok D m eps slope inp G M fuel order ht f hf
      exact ⟨fm, e, fun v hv => by rw [h' v hv, h v hv]; rfl⟩
  obtain ⟨fm, e, hfm⟩ := key
  rw [KGraph.crown, e]
  simp only [Except.bind]
  refine crownModelE_ok M fuel order ht hf nameOf outs bounds hbo ho hname hlong hreach hN h0 hI0 (fun v hv p hp => ?_) _ fun o hoo => ?_
  · have hpo := topological_parent_mem G.parents ht hv (by rw [hp]; simp : p ∈ G.parents v)
    obtain ⟨f, hf, hI⟩ := hI1 v hv p hp
    cases ef : fw p with
    | some g =>
      simp only [crownOut, ef] at hf
      obtain rfl := Except.ok.inj hf
      exact .inl (by rw [hfm p hpo, ef, hI]; rfl)
    | none =>
      obtain ⟨⟨R, hR⟩, -⟩ := htot p hpo
      simp only [crownOut, ef, hR, Except.map] at hf
      obtain rfl := Except.ok.inj hf
      refine .inr ⟨by rw [hfm p hpo, ef]; rfl, R.toB, (hwalk p hpo).1 R hR, ?_⟩
      rw [setModeB_toB, hI]
  · rcases hS o hoo with ⟨rfl, R, h, e⟩ | ⟨c, B, R, rfl, h, e⟩
    · exact ⟨_, (hwalk o (ho o hoo)).1 _ h, by rw [setModeB_toB, e]⟩
    · exact ⟨_, (hwalk o (ho o hoo)).2 _ _ _ h, by rw [setModeB_toB, e]⟩

/-- C139: on a graph of layers that have a backward layer, all leading to one of the outputs, the backward conversion raises nothing.  The
bounds of each output are those of the backward pass of that output alone, whatever the dictionaries shared by the passes contain. -/
theorem C139_convert (D : PertDomain X (Idx [n]) ℝ) (stack : (Idx [n] → ℝ) → (Idx [n] → ℝ) → X) (m : Mode) (eps : ℝ) (slope : Slope) (uf : Bool)
    (inp : Full X (Idx [n]) (Idx [n]) ℝ) (G : KGraph n) (M fuel : ℕ) (order : List ℕ) (ht : Topological G.parents order)
    (hf : order.length ≤ fuel + 1) (nameOf : ℕ → String) (outs : List ℕ) (ho : ∀ o ∈ outs, o ∈ order)
    (hname : ∀ o ∈ outs, ∀ o' ∈ outs, nameOf o = nameOf o' → o = o') (hlong : ∀ o ∈ outs, LongestFromInput G.parents o M)
    (hreach : ∀ v ∈ order, ∃ o ∈ outs, ∃ k, Walk G.parents v o k) (hb : ∀ v ∈ order, (G.op v).HasBack) :
    ∃ fw w, G.IsForward D m eps slope uf inp order fw ∧ G.IsCrown D stack m eps slope inp order fw w ∧
      ∃ R : (v : ℕ) → Back (Idx [n]) (Idx (G.sh v)) ℝ, (∀ v ∈ order, (w v).first = .ok (R v)) ∧
      G.crown D stack m eps slope uf inp M (fuel + 1) order nameOf outs [] =
        .ok (outs.flatMap fun o => ((convert2BackwardMode D stack m inp (R o)).toList m).map Ten.toB) := by
  obtain ⟨fw, hfw⟩ := exists_isForward D m eps slope uf inp G order ht
  obtain ⟨w, hw⟩ := exists_isCrown D stack m eps slope inp G order ht fw
  have htot := crown_total D stack m eps slope inp G order ht fw (isForward_carried hfw) w hw hb
  have : ∀ v, ∃ R, v ∈ order → (w v).first = .ok R := fun v => by
    by_cases h : v ∈ order
    · obtain ⟨⟨R, e⟩, -⟩ := htot v h
      exact ⟨R, fun _ => e⟩
    · exact ⟨⟨fun _ _ => 0, fun _ => 0, fun _ _ => 0, fun _ => 0⟩, fun h' => absurd h' h⟩
  choose R hR using this
  exact ⟨fw, w, hfw, hw, R, hR, crown_ok D stack m eps slope uf inp G M fuel order ht hf nameOf outs [] (.inl rfl) ho hname hlong hreach hb fw hfw w
    hw _ fun o hoo => .inl ⟨rfl, R o, hR o (ho o hoo), rfl⟩⟩

/-- What the backward pass from the nodes gives is sound. -/
theorem crown_holds (D : PertDomain X (Idx [n]) ℝ) (stack : (Idx [n] → ℝ) → (Idx [n] → ℝ) → X) (m : Mode) (eps : ℝ) (he : 0 < eps) (slope : Slope)
    (uf : Bool) (inp : Full X (Idx [n]) (Idx [n]) ℝ) (S : Set (Idx [n] → ℝ)) (hD : D.Sound inp.x S)
    (hst : m = .ibp → D.Sound (stack inp.lc inp.uc) S) (G : KGraph n) (order : List ℕ) (ht : Topological G.parents order)
    (hb : ∀ v ∈ order, (G.op v).HasBack) (hG : ∀ v ∈ order, (G.op v).WF) (fw : (v : ℕ) → Option (Full X (Idx [n]) (Idx (G.sh v)) ℝ))
    (hfw : G.IsForward D m eps slope uf inp order fw) (w : (v : ℕ) → GNode n (G.sh v)) (hw : G.IsCrown D stack m eps slope inp order fw w)
    (hgood : uf = true → ∀ f, G.IsBounds D m eps slope inp order f → ∀ v ∈ order, (G.op v).Good D m eps (HList.ofNodes f (G.parents v)))
    (hs : ∀ v ∈ order, (G.op v).SafeBack D m eps (HList.ofNodes (fun u => (w u, crownOut D stack m inp (fw u) (w u))) (G.parents v)))
    (p : Idx [n] → ℝ) (hp : p ∈ S) (hi : Valid m false inp p p) (y : (v : ℕ) → Idx (G.sh v) → ℝ) (hy : G.IsValue p order y) :
    ∀ v ∈ order, (∀ R, (w v).first = .ok R → R.Holds p (y v)) ∧ NodeHolds m inp p _ (w v, crownOut D stack m inp (fw v) (w v)) (y v) := by
  refine topological_induction G.parents ht _ fun v hv ih => ?_
  have h := hAll_nodes (σ := List ℕ) (F := fun s => GNode n s × Except PyErr (Full X (Idx [n]) (Idx s) ℝ)) (G := fun s => Idx s → ℝ) (sh := G.sh)
    (P := NodeHolds m inp p) (fun u => (w u, crownOut D stack m inp (fw u) (w u))) y (G.parents v) fun u hu => (ih u hu).2
  have key := KOp.node_holds D m eps he slope inp S hD p hp hi (G.op v) (hb v hv) (hG v hv) _ (hs v hv) _ h
  rw [← hw v hv, ← hy v hv] at key
  refine ⟨key.1, key.2, fun f e => ?_⟩
  cases ef : fw v with
  | some g =>
    simp only [crownOut, ef] at e
    obtain rfl := Except.ok.inj e
    cases uf with
    | false => rw [hfw v] at ef; cases ef
    | true =>
      obtain ⟨f', hf', h'⟩ := hfw
      rw [h' v hv] at ef
      obtain rfl := Option.some.inj ef
      exact bounds_valid D m eps he slope inp S hD G order ht hG f' hf' (hgood rfl f' hf') p hp hi y hy v hv
  | none =>
    simp only [crownOut, ef] at e
    cases eR : (w v).first with
    | error _ => rw [eR] at e; cases e
    | ok R =>
      rw [eR] at e
      obtain rfl := Except.ok.inj e
      exact ⟨crown_x D stack m inp R, convert2BackwardMode_valid D stack m inp S (fun _ => hD) hst p hp R _ (key.1 R eR)⟩

/-- C139: the tensors returned for every output of the model bound that output at every point of the region.  Missing: the models in which the
lines of an activation are wrong for the bounds that it receives (`SafeBack`, and `Good` in the forward pass), for which the claim is false; the
softplus and the models that raise. -/
theorem C139_sound_partial (D : PertDomain X (Idx [n]) ℝ) (stack : (Idx [n] → ℝ) → (Idx [n] → ℝ) → X) (m : Mode) (eps : ℝ) (he : 0 < eps)
    (slope : Slope) (uf : Bool) (inp : Full X (Idx [n]) (Idx [n]) ℝ) (S : Set (Idx [n] → ℝ)) (hD : D.Sound inp.x S)
    (hst : m = .ibp → D.Sound (stack inp.lc inp.uc) S) (hi : ∀ p ∈ S, Valid m false inp p p) (G : KGraph n) (M fuel : ℕ) (order : List ℕ)
    (ht : Topological G.parents order) (hf : order.length ≤ fuel + 1) (nameOf : ℕ → String) (outs : List ℕ) (ho : ∀ o ∈ outs, o ∈ order)
    (hname : ∀ o ∈ outs, ∀ o' ∈ outs, nameOf o = nameOf o' → o = o') (hlong : ∀ o ∈ outs, LongestFromInput G.parents o M)
    (hreach : ∀ v ∈ order, ∃ o ∈ outs, ∃ k, Walk G.parents v o k) (hb : ∀ v ∈ order, (G.op v).HasBack) (hG : ∀ v ∈ order, (G.op v).WF)
    (hgood : uf = true → ∀ f, G.IsBounds D m eps slope inp order f → ∀ v ∈ order, (G.op v).Good D m eps (HList.ofNodes f (G.parents v)))
    (hs : ∀ fw w, G.IsForward D m eps slope uf inp order fw → G.IsCrown D stack m eps slope inp order fw w →
      ∀ v ∈ order, (G.op v).SafeBack D m eps (HList.ofNodes (fun u => (w u, crownOut D stack m inp (fw u) (w u))) (G.parents v))) :
    ∃ r : (v : ℕ) → Full X (Idx [n]) (Idx (G.sh v)) ℝ,
      G.crown D stack m eps slope uf inp M (fuel + 1) order nameOf outs [] = .ok (outs.flatMap fun o => ((r o).toList m).map Ten.toB) ∧
      ∀ o ∈ outs, (r o).x = inp.x ∧ ∀ p ∈ S, ∀ y, G.IsValue p order y → Valid m false (r o) p (y o) := by
  obtain ⟨fw, w, hfw, hw, R, hR, e⟩ := C139_convert D stack m eps slope uf inp G M fuel order ht hf nameOf outs ho hname hlong hreach hb
  refine ⟨fun v => convert2BackwardMode D stack m inp (R v), e, fun o hoo => ⟨crown_x D stack m inp _, fun p hp y hy => ?_⟩⟩
  have h := (crown_holds D stack m eps he slope uf inp S hD hst G order ht hb hG fw hfw w hw hgood (hs fw w hfw hw) p hp (hi p hp) y hy o (ho o hoo)).1
  exact convert2BackwardMode_valid D stack m inp S (fun _ => hD) hst p hp _ _ (h _ (hR o (ho o hoo)))

/-- C139: the tensors returned by `convert_backward` in its final mode, on a model with one output.  Missing: as above, and from ibp to another
mode (C29). -/
theorem C139_final_partial (D : PertDomain X (Idx [n]) ℝ) (stack : (Idx [n] → ℝ) → (Idx [n] → ℝ) → X) (m mTo : Mode) (hm : m ≠ .ibp ∨ mTo = .ibp)
    (eps : ℝ) (he : 0 < eps) (slope : Slope) (uf : Bool) (inp : Full X (Idx [n]) (Idx [n]) ℝ) (S : Set (Idx [n] → ℝ)) (hD : D.Sound inp.x S)
    (hst : m = .ibp → D.Sound (stack inp.lc inp.uc) S) (hi : ∀ p ∈ S, Valid m false inp p p) (G : KGraph n) (M fuel : ℕ) (order : List ℕ)
    (ht : Topological G.parents order) (hf : order.length ≤ fuel + 1) (nameOf : ℕ → String) (o : ℕ) (ho : o ∈ order)
    (hlong : LongestFromInput G.parents o M) (hreach : ∀ v ∈ order, ∃ k, Walk G.parents v o k) (hb : ∀ v ∈ order, (G.op v).HasBack)
    (hG : ∀ v ∈ order, (G.op v).WF)
    (hgood : uf = true → ∀ f, G.IsBounds D m eps slope inp order f → ∀ v ∈ order, (G.op v).Good D m eps (HList.ofNodes f (G.parents v)))
    (hs : ∀ fw w, G.IsForward D m eps slope uf inp order fw → G.IsCrown D stack m eps slope inp order fw w →
      ∀ v ∈ order, (G.op v).SafeBack D m eps (HList.ofNodes (fun u => (w u, crownOut D stack m inp (fw u) (w u))) (G.parents v))) :
    ∃ r : Full X (Idx [n]) (Idx (G.sh o)) ℝ,
      G.convertBackward D stack m mTo eps slope uf inp M (fuel + 1) order nameOf o = .ok ((r.toList mTo).map Ten.toB) ∧
      ∀ p ∈ S, ∀ y, G.IsValue p order y → Valid mTo false r p (y o) := by
  obtain ⟨r, e, h⟩ := C139_sound_partial D stack m eps he slope uf inp S hD hst hi G M fuel order ht hf nameOf [o] (by simpa using ho) (by simp)
    (by simpa using hlong) (by simpa using hreach) hb hG hgood hs
  obtain ⟨hx, h⟩ := h o (by simp)
  refine ⟨convert2Mode D m mTo ((r o).carried m inp.x), ?_, fun p hp y hy => ?_⟩
  · simp only [KGraph.convertBackward, e, List.flatMap_cons, List.flatMap_nil, List.append_nil, Except.bind, readListB_toList, Except.map]
  · exact C29_convert2Mode_valid D m mTo hm _ S (by rw [carried_x hx]; exact hD) p hp _ (carried_valid (h p hp y hy))

/-- C139 over a box. -/
theorem C139_box_partial (m mTo : Mode) (hm : m ≠ .ibp ∨ mTo = .ibp) (eps : ℝ) (he : 0 < eps) (slope : Slope) (uf : Bool) (b : BoxOf (Idx [n]) ℝ)
    (G : KGraph n) (M fuel : ℕ) (order : List ℕ) (ht : Topological G.parents order) (hf : order.length ≤ fuel + 1) (nameOf : ℕ → String) (o : ℕ)
    (ho : o ∈ order) (hlong : LongestFromInput G.parents o M) (hreach : ∀ v ∈ order, ∃ k, Walk G.parents v o k)
    (hb : ∀ v ∈ order, (G.op v).HasBack) (hG : ∀ v ∈ order, (G.op v).WF)
    (hgood : uf = true → ∀ f, G.IsBounds boxDomain m eps slope (inputTensorsBox m b.1 b.2) order f →
      ∀ v ∈ order, (G.op v).Good boxDomain m eps (HList.ofNodes f (G.parents v)))
    (hs : ∀ fw w, G.IsForward boxDomain m eps slope uf (inputTensorsBox m b.1 b.2) order fw →
      G.IsCrown boxDomain Prod.mk m eps slope (inputTensorsBox m b.1 b.2) order fw w → ∀ v ∈ order, (G.op v).SafeBack boxDomain m eps
        (HList.ofNodes (fun u => (w u, crownOut boxDomain Prod.mk m (inputTensorsBox m b.1 b.2) (fw u) (w u))) (G.parents v))) :
    ∃ r : Full (BoxOf (Idx [n]) ℝ) (Idx [n]) (Idx (G.sh o)) ℝ,
      G.convertBackward boxDomain Prod.mk m mTo eps slope uf (inputTensorsBox m b.1 b.2) M (fuel + 1) order nameOf o =
        .ok ((r.toList mTo).map Ten.toB) ∧
      ∀ p ∈ Box b.1 b.2, ∀ y, G.IsValue p order y → Valid mTo false r p (y o) :=
  C139_final_partial boxDomain Prod.mk m mTo hm eps he slope uf _ (Box b.1 b.2) (boxDomain_sound _ _)
    (fun h => by subst h; exact boxDomain_sound _ _) (fun p hp => C27_input_box m b.1 b.2 p hp) G M fuel order ht hf nameOf o ho hlong hreach hb hG hgood hs

/-- C139 over an `Lp` ball, except in ibp mode, in which the tensor made by `Convert2BackwardMode` is not one of a ball (C29). -/
theorem C139_ball_partial [Nonempty (Idx [n])] (m mTo : Mode) (hm : m ≠ .ibp) (leps : ℝ) (he : 0 < leps) (slope : Slope) (uf : Bool) (eps : ℝ)
    (q : PVal) (z : Idx [n] → ℝ) (stack : (Idx [n] → ℝ) → (Idx [n] → ℝ) → Idx [n] → ℝ) (G : KGraph n) (M fuel : ℕ) (order : List ℕ)
    (ht : Topological G.parents order) (hf : order.length ≤ fuel + 1) (nameOf : ℕ → String) (o : ℕ) (ho : o ∈ order)
    (hlong : LongestFromInput G.parents o M) (hreach : ∀ v ∈ order, ∃ k, Walk G.parents v o k) (hb : ∀ v ∈ order, (G.op v).HasBack)
    (hG : ∀ v ∈ order, (G.op v).WF) (hgood : uf = true → ∀ f, G.IsBounds (ballDomain eps q) m leps slope (inputTensorsBall m eps q z) order f →
      ∀ v ∈ order, (G.op v).Good (ballDomain eps q) m leps (HList.ofNodes f (G.parents v)))
    (hs : ∀ fw w, G.IsForward (ballDomain eps q) m leps slope uf (inputTensorsBall m eps q z) order fw →
      G.IsCrown (ballDomain eps q) stack m leps slope (inputTensorsBall m eps q z) order fw w → ∀ v ∈ order, (G.op v).SafeBack (ballDomain eps q) m leps
        (HList.ofNodes (fun u => (w u, crownOut (ballDomain eps q) stack m (inputTensorsBall m eps q z) (fw u) (w u))) (G.parents v))) :
    ∃ r : Full (Idx [n] → ℝ) (Idx [n]) (Idx (G.sh o)) ℝ,
      G.convertBackward (ballDomain eps q) stack m mTo leps slope uf (inputTensorsBall m eps q z) M (fuel + 1) order nameOf o =
        .ok ((r.toList mTo).map Ten.toB) ∧
      ∀ p ∈ LpBall z eps q, ∀ y, G.IsValue p order y → Valid mTo false r p (y o) :=
  C139_final_partial (ballDomain eps q) stack m mTo (.inl hm) leps he slope uf _ (LpBall z eps q) (ball_input_sound m eps q z) (fun h => absurd h hm)
    (fun p hp => C27_input_ball m eps q z p hp) G M fuel order ht hf nameOf o ho hlong hreach hb hG hgood hs

/-- C139 with `back_bounds`, for instance the matrix of a linear function of the outputs: the tensors returned bound, at every point of the
region, whatever is bounded by `back_bounds` from the output of the model.  Missing: as above. -/
theorem C139_backBounds_partial (D : PertDomain X (Idx [n]) ℝ) (stack : (Idx [n] → ℝ) → (Idx [n] → ℝ) → X) (m : Mode) (eps : ℝ) (he : 0 < eps)
    (slope : Slope) (uf : Bool) (inp : Full X (Idx [n]) (Idx [n]) ℝ) (S : Set (Idx [n] → ℝ)) (hD : D.Sound inp.x S)
    (hst : m = .ibp → D.Sound (stack inp.lc inp.uc) S) (hi : ∀ p ∈ S, Valid m false inp p p) (G : KGraph n) (M fuel : ℕ) (order : List ℕ)
    (ht : Topological G.parents order) (hf : order.length ≤ fuel + 1) (nameOf : ℕ → String) (o : ℕ) (ho : o ∈ order)
    (hlong : LongestFromInput G.parents o M) (hreach : ∀ v ∈ order, ∃ k, Walk G.parents v o k) (hb : ∀ v ∈ order, (G.op v).HasBack)
    (hG : ∀ v ∈ order, (G.op v).WF)
    (hgood : uf = true → ∀ f, G.IsBounds D m eps slope inp order f → ∀ v ∈ order, (G.op v).Good D m eps (HList.ofNodes f (G.parents v)))
    (hs : ∀ fw w, G.IsForward D m eps slope uf inp order fw → G.IsCrown D stack m eps slope inp order fw w →
      ∀ v ∈ order, (G.op v).SafeBack D m eps (HList.ofNodes (fun u => (w u, crownOut D stack m inp (fw u) (w u))) (G.parents v)))
    {c : List ℕ} (B : Back (Idx (G.sh o)) (Idx c) ℝ) :
    ∃ r : Full X (Idx [n]) (Idx c) ℝ, G.crown D stack m eps slope uf inp M (fuel + 1) order nameOf [o] B.toB = .ok ((r.toList m).map Ten.toB) ∧
      ∀ p ∈ S, ∀ y, G.IsValue p order y → ∀ t, B.Holds (y o) t → Valid m false r p t := by
  obtain ⟨fw, hfw⟩ := exists_isForward D m eps slope uf inp G order ht
  obtain ⟨w, hw⟩ := exists_isCrown D stack m eps slope inp G order ht fw
  obtain ⟨-, hn, -⟩ := crown_total D stack m eps slope inp G order ht fw (isForward_carried hfw) w hw hb o ho
  obtain ⟨R, hR⟩ := hn c B
  refine ⟨convert2BackwardMode D stack m inp R, ?_, fun p hp y hy t h => ?_⟩
  · have := crown_ok D stack m eps slope uf inp G M fuel order ht hf nameOf [o] B.toB (.inr rfl) (by simpa using ho) (by simp)
      (by simpa using hlong) (by simpa using hreach) hb fw hfw w hw (fun _ => ((convert2BackwardMode D stack m inp R).toList m).map Ten.toB)
      fun o' ho' => by
        obtain rfl : o' = o := by simpa using ho'
        exact .inr ⟨c, B, R, rfl, hR, rfl⟩
    simpa using this
  · have := (crown_holds D stack m eps he slope uf inp S hD hst G order ht hb hG fw hfw w hw hgood (hs fw w hfw hw) p hp (hi p hp) y hy o ho).2.1
    exact convert2BackwardMode_valid D stack m inp S (fun _ => hD) hst p hp _ _ (this c B R hR t h)

/-- C139: `back_bounds` made of one matrix `C` (`convert_backward` completes it with a zero bias, backward_cloning.py:428-432): the tensors bound
the entries of `C` applied to the output. -/
theorem C139_matrix_partial (D : PertDomain X (Idx [n]) ℝ) (stack : (Idx [n] → ℝ) → (Idx [n] → ℝ) → X) (m : Mode) (eps : ℝ) (he : 0 < eps)
    (slope : Slope) (uf : Bool) (inp : Full X (Idx [n]) (Idx [n]) ℝ) (S : Set (Idx [n] → ℝ)) (hD : D.Sound inp.x S)
    (hst : m = .ibp → D.Sound (stack inp.lc inp.uc) S) (hi : ∀ p ∈ S, Valid m false inp p p) (G : KGraph n) (M fuel : ℕ) (order : List ℕ)
    (ht : Topological G.parents order) (hf : order.length ≤ fuel + 1) (nameOf : ℕ → String) (o : ℕ) (ho : o ∈ order)
    (hlong : LongestFromInput G.parents o M) (hreach : ∀ v ∈ order, ∃ k, Walk G.parents v o k) (hb : ∀ v ∈ order, (G.op v).HasBack)
    (hG : ∀ v ∈ order, (G.op v).WF)
    (hgood : uf = true → ∀ f, G.IsBounds D m eps slope inp order f → ∀ v ∈ order, (G.op v).Good D m eps (HList.ofNodes f (G.parents v)))
    (hs : ∀ fw w, G.IsForward D m eps slope uf inp order fw → G.IsCrown D stack m eps slope inp order fw w →
      ∀ v ∈ order, (G.op v).SafeBack D m eps (HList.ofNodes (fun u => (w u, crownOut D stack m inp (fw u) (w u))) (G.parents v)))
    {c : List ℕ} (C : Idx (G.sh o) → Idx c → ℝ) :
    ∃ r : Full X (Idx [n]) (Idx c) ℝ,
      G.crown D stack m eps slope uf inp M (fuel + 1) order nameOf [o]
        [.mat (G.sh o) c C, .vec c fun _ => 0, .mat (G.sh o) c C, .vec c fun _ => 0] = .ok ((r.toList m).map Ten.toB) ∧
      ∀ p ∈ S, ∀ y, G.IsValue p order y → Valid m false r p fun j => ∑ i, C i j * y o i := by
  obtain ⟨r, e, h⟩ := C139_backBounds_partial D stack m eps he slope uf inp S hD hst hi G M fuel order ht hf nameOf o ho hlong hreach hb hG hgood hs
    ⟨C, fun _ => 0, C, fun _ => 0⟩
  exact ⟨r, e, fun p hp y hy => h p hp y hy _ fun j => by simp [affEval]⟩

/-- C139 on a single point: every bound returned is the output of the Keras model.  No condition on the bounds that reach the activations is
needed. -/
theorem C139_point (m mTo : Mode) (hm : m ≠ .ibp ∨ mTo = .ibp) (eps : ℝ) (slope : Slope) (uf : Bool) (p : Idx [n] → ℝ) (G : KGraph n)
    (M fuel : ℕ) (order : List ℕ) (ht : Topological G.parents order) (hf : order.length ≤ fuel + 1) (nameOf : ℕ → String) (o : ℕ) (ho : o ∈ order)
    (hlong : LongestFromInput G.parents o M) (hreach : ∀ v ∈ order, ∃ k, Walk G.parents v o k) (hb : ∀ v ∈ order, (G.op v).HasBack) :
    ∃ r : Full (BoxOf (Idx [n]) ℝ) (Idx [n]) (Idx (G.sh o)) ℝ,
      G.convertBackward boxDomain Prod.mk m mTo eps slope uf (inputTensorsBox m p p) M (fuel + 1) order nameOf o = .ok ((r.toList mTo).map Ten.toB) ∧
      ∀ y, G.IsValue p order y → ExactAt mTo r p (y o) := by
  obtain ⟨fw, w, hfw, hw, R, hR, e⟩ := C139_convert boxDomain Prod.mk m eps slope uf (inputTensorsBox m p p) G M fuel order ht hf nameOf [o]
    (by simpa using ho) (by simp) (by simpa using hlong) (by simpa using hreach) hb
  have hD : (boxDomain : PertDomain _ (Idx [n]) ℝ).Point (inputTensorsBox m p p).x p := boxDomain_point p
  have hst : m = .ibp → (boxDomain : PertDomain _ (Idx [n]) ℝ).Point ((inputTensorsBox m p p).lc, (inputTensorsBox m p p).uc) p := fun h => by
    subst h; exact boxDomain_point p
  refine ⟨convert2Mode boxDomain m mTo ((convert2BackwardMode boxDomain Prod.mk m (inputTensorsBox m p p) (R o)).carried m (p, p)), ?_, fun y hy => ?_⟩
  · simp only [KGraph.convertBackward, e, List.flatMap_cons, List.flatMap_nil, List.append_nil, Except.bind, readListB_toList, Except.map]
    rfl
  · have key : ∀ v ∈ order, (∀ R, (w v).first = .ok R → R.ExactAt p (y v)) ∧
        NodeExact m (inputTensorsBox m p p) p _ (w v, crownOut boxDomain Prod.mk m (inputTensorsBox m p p) (fw v) (w v)) (y v) := by
      refine topological_induction G.parents ht _ fun v hv ih => ?_
      have h := hAll_nodes (σ := List ℕ) (F := fun s => GNode n s × Except PyErr (Full (BoxOf (Idx [n]) ℝ) (Idx [n]) (Idx s) ℝ))
        (G := fun s => Idx s → ℝ) (sh := G.sh) (P := NodeExact m (inputTensorsBox m p p) p)
        (fun u => (w u, crownOut boxDomain Prod.mk m (inputTensorsBox m p p) (fw u) (w u))) y (G.parents v) fun u hu => (ih u hu).2
      have key := KOp.node_exact boxDomain m eps slope (inputTensorsBox m p p) p hD (inputTensorsBox_exact m p) (G.op v) (hb v hv) _ _ h
      rw [← hw v hv, ← hy v hv] at key
      refine ⟨key.1, key.2, fun f e => ?_⟩
      cases ef : fw v with
      | some g =>
        simp only [crownOut, ef] at e
        obtain rfl := Except.ok.inj e
        cases uf with
        | false => rw [hfw v] at ef; cases ef
        | true =>
          obtain ⟨f', hf', h'⟩ := hfw
          rw [h' v hv] at ef
          obtain rfl := Option.some.inj ef
          exact bounds_exact m eps slope p G order ht f' hf' (fun _ v hv => KOp.noSoftplus_of_hasBack _ (hb v hv)) y hy v hv
      | none =>
        simp only [crownOut, ef] at e
        cases eR : (w v).first with
        | error _ => rw [eR] at e; cases e
        | ok R =>
          rw [eR] at e
          obtain rfl := Except.ok.inj e
          exact ⟨crown_x boxDomain Prod.mk m _ R, convert2BackwardMode_exact boxDomain Prod.mk m _ p hD hst R _ (key.1 R eR)⟩
    have v := convert2BackwardMode_exact boxDomain Prod.mk m _ p hD hst (R o) _ ((key o ho).1 _ (hR o ho))
    exact convert2Mode_exact m mTo hm _ p (by
      rw [carried_x (x0 := (p, p)) (crown_x boxDomain Prod.mk m (inputTensorsBox m p p) _)]; exact hD) _ (carried_exact v)

/-- C139: `back_bounds` with several outputs raise `NotImplementedError`. -/
theorem C139_backBounds_several (D : PertDomain X (Idx [n]) ℝ) (stack : (Idx [n] → ℝ) → (Idx [n] → ℝ) → X) (m : Mode) (eps : ℝ) (slope : Slope)
    (uf : Bool) (inp : Full X (Idx [n]) (Idx [n]) ℝ) (G : KGraph n) (M fuel : ℕ) (order : List ℕ) (ht : Topological G.parents order)
    (nameOf : ℕ → String) (outs : List ℕ) (ho : 1 < outs.length) (bounds : List (BTen X)) (hb : bounds ≠ []) :
    G.crown D stack m eps slope uf inp M (fuel + 1) order nameOf outs bounds = .error .notImplemented := by
  obtain ⟨fm, e⟩ : ∃ fm, (if uf then G.forwardMap D m eps slope inp M (fuel + 1) order else .ok fun _ => none) = .ok fm := by
    cases uf with
    | false => exact ⟨_, rfl⟩
    | true =>
      obtain ⟨f, hf⟩ := exists_isBounds D m eps slope inp G order ht
      obtain ⟨fm, e, -⟩ := forwardMap_ok D m eps slope inp G M fuel order ht f hf
      exact ⟨fm, e⟩
  rw [KGraph.crown, e]
  simp [Except.bind, crownModelE, hb, ho]

/-- C139: a model with a merge layer, a pooling layer or an `exponential` activation raises, wherever the layer is and whatever the method, the
mode and the `back_bounds`, when all the nodes lead to the output. -/
theorem C139_raises (D : PertDomain X (Idx [n]) ℝ) (stack : (Idx [n] → ℝ) → (Idx [n] → ℝ) → X) (m : Mode) (eps : ℝ) (slope : Slope) (uf : Bool)
    (inp : Full X (Idx [n]) (Idx [n]) ℝ) (G : KGraph n) (M fuel : ℕ) (order : List ℕ) (ht : Topological G.parents order)
    (nameOf : ℕ → String) (o : ℕ) (ho : o ∈ order) (hlong : LongestFromInput G.parents o M) (hreach : ∀ v ∈ order, ∃ k, Walk G.parents v o k)
    (v : ℕ) (hv : v ∈ order) (hbad : (G.op v).NoBack) (bounds : List (BTen X)) :
    ∃ e, G.crown D stack m eps slope uf inp M (fuel + 1) order nameOf [o] bounds = .error e := by
  obtain ⟨d, e, hd, hg⟩ := depthDict_ok G.parents M fuel order ht
  have hdl := depth_longest G.parents M d ht hg
  have hz := nodesAt_zero G.parents M d order ht.1 o ho hlong hreach hdl
  cases er : G.crown D stack m eps slope uf inp M (fuel + 1) order nameOf [o] bounds with
  | error e => exact ⟨e, rfl⟩
  | ok l =>
    exfalso
    rw [KGraph.crown] at er
    generalize (if uf then G.forwardMap D m eps slope inp M (fuel + 1) order else .ok fun _ => none) = q at er
    cases q with
    | error _ => cases er
    | ok fm =>
      simp only [Except.bind, crownModelE, List.length_singleton, lt_irrefl, and_false, if_false, e, hz] at er
      generalize eI : crownInputs G.parents _ mergeB (fuseB m) _ _ fm _ _ _ = st at er
      cases st with
      | error _ => cases er
      | ok st =>
        have hc := crownInputs_back _ fm (fuel + 1) _ _ st eI (by simp)
        simp only [List.map_cons, List.map_nil, List.flatMap_cons, List.flatMap_nil, List.append_nil, List.filter_cons, decide_true, if_true,
          List.filter_nil, crownOutputs] at er
        generalize eg : crownGo G.parents _ mergeB (fuseB m) st.1 (fuel + 1) o bounds st.2 = g at er
        cases g with
        | error _ => cases er
        | ok g =>
          obtain ⟨k, hk⟩ := hreach v hv
          obtain ⟨t, b, hb⟩ := (crownGo_back st.1 (fuel + 1) o bounds st.2 g eg hc).2 v k hk
          exact KOp.back_noBack D m eps slope inp.x _ hbad t b hb

end

/-! ### Concrete graphs -/

/-- A model with two outputs, `tanh(x)` and `softsign(x)`, that share a `Dropout` layer. -/
def forkGraph : KGraph 1 where
  parents := fun v => match v with | 1 => [0] | 2 => [1] | 3 => [1] | _ => []
  sh := fun _ => [1]
  op := fun v => match v with
    | 0 => .input
    | 1 => .layer (.lay .skip)
    | 2 => .layer (.act .tanh)
    | 3 => .layer (.act .softsign)
    | _ + 4 => .input

theorem forkGraph_lt : ∀ v, ∀ p ∈ forkGraph.parents v, p < v := fun v p hp => by
  match v, hp with
  | 0, hp => simp [forkGraph] at hp
  | 1, hp => simp [forkGraph] at hp; omega
  | 2, hp => simp [forkGraph] at hp; omega
  | 3, hp => simp [forkGraph] at hp; omega
  | _ + 4, hp => simp [forkGraph] at hp

theorem getLowerBox_diag {ι : Type} [Fintype ι] [DecidableEq ι] (xmin xmax v : ι → ℝ) (b : ℝ) (k : ι) :
    getLowerBox xmin xmax (fun i => diagLike v i k) b = max (v k) 0 * xmin k + min (v k) 0 * xmax k + b := by
  simp only [getLowerBox]
  congr 1
  rw [Finset.sum_eq_single k]
  · simp [diagLike]
  · intro i _ h; simp [diagLike, h]
  · simp

theorem forkGraph_ok : Topological forkGraph.parents [0, 1, 2, 3] ∧ (∀ o ∈ [3, 2], LongestFromInput forkGraph.parents o 2) ∧
    ∀ v ∈ [0, 1, 2, 3], ∃ o ∈ [3, 2], ∃ k, Walk forkGraph.parents v o k := by
  have w1 : Walk forkGraph.parents 0 1 1 := .snoc (p := 0) (.nil 0) (by simp [forkGraph])
  have w2 : ∀ o ∈ [3, 2], ∀ a k, Walk forkGraph.parents a 1 k → Walk forkGraph.parents a o (k + 1) := fun o ho a k w => by
    have : o = 3 ∨ o = 2 := by simpa using ho
    rcases this with rfl | rfl <;> exact .snoc (p := 1) w (by simp [forkGraph])
  refine ⟨⟨by decide, fun l1 v l2 e p hp => ?_⟩, fun o ho => ⟨⟨0, rfl, w2 o ho 0 1 w1⟩, fun a k _ w => ?_⟩, fun v hv => ?_⟩
  · have hv := forkGraph_lt v p hp
    match l1, e with
    | [], e => simp at e; omega
    | [a], e => simp at e; obtain ⟨rfl, rfl, -⟩ := e; simp; omega
    | [a, b], e => simp at e; obtain ⟨rfl, rfl, rfl, -⟩ := e; simp; omega
    | [a, b, c], e => simp at e; obtain ⟨rfl, rfl, rfl, rfl, -⟩ := e; simp; omega
    | a :: b :: c :: d :: t, e => simp at e
  · have : o = 3 ∨ o = 2 := by simpa using ho
    rcases this with rfl | rfl
    · cases w with
      | nil => simp
      | snoc w hp =>
        simp only [forkGraph, List.mem_singleton] at hp
        subst hp
        have := walk_le_of forkGraph_lt w
        omega
    · exact walk_le_of forkGraph_lt w
  · have : v = 0 ∨ v = 1 ∨ v = 2 ∨ v = 3 := by simpa using hv
    rcases this with rfl | rfl | rfl | rfl
    · exact ⟨3, by simp, _, w2 3 (by simp) _ _ w1⟩
    · exact ⟨3, by simp, _, w2 3 (by simp) _ _ (.nil 1)⟩
    · exact ⟨2, by simp, 0, .nil 2⟩
    · exact ⟨3, by simp, 0, .nil 3⟩

/-- The bounds that both activations receive, over `[1, 2]`. -/
theorem forkGraph_received (w : (v : ℕ) → GNode 1 (forkGraph.sh v))
    (hw : forkGraph.IsCrown boxDomain Prod.mk .ibp (1 / 10000000) .vSlope (inputTensorsBox .ibp (fun _ => 1) (fun _ => 2)) [0, 1, 2, 3] (fun _ => none) w)
    (f : Full (BoxOf (Idx [1]) ℝ) (Idx [1]) (Idx [1]) ℝ)
    (hf : crownOut boxDomain Prod.mk .ibp (inputTensorsBox .ibp (fun _ => 1) (fun _ => 2)) none (w 1) = .ok f) (k : Idx [1]) : f.lc k = 1 ∧ f.uc k = 2 := by
  have h0 := hw 0 (by simp)
  have h1 := hw 1 (by simp)
  have e0 : w 0 = ⟨.ok Back.identity, fun _ b => .ok (mergeWithPrevious Back.identity b)⟩ := h0
  have e1 : (w 1).first = (Except.bind ((w 0).first.map (convert2BackwardMode boxDomain Prod.mk .ibp (inputTensorsBox .ibp (fun _ => 1) (fun _ => 2))))
      ((Step.lay (a := [1]) .skip).back boxDomain .ibp (1 / 10000000) .vSlope)).bind ((w 0).next [1]) := by rw [h1]; rfl
  rw [e0] at e1
  have e2 : (w 1).first = .ok (Back.identity : Back (Idx [1]) (Idx [1]) ℝ) :=
    e1.trans (congrArg Except.ok (merge_identity_right (Back.identity : Back (Idx [1]) (Idx [1]) ℝ)))
  simp only [crownOut, e2] at hf
  obtain rfl := Except.ok.inj hf
  constructor
  · exact (getLowerBox_diag (fun _ : Idx [1] => (1 : ℝ)) (fun _ => 2) (fun _ => 1) 0 k).trans (by norm_num)
  · exact (getUpperBox_diag (fun _ : Idx [1] => (1 : ℝ)) (fun _ => 2) (fun _ => 1) 0 k).trans (by norm_num)

/-- C139 on that model, over `[1, 2]`: the tensors of both outputs. -/
example : ∃ u3 l3 u2 l2 : Idx [1] → ℝ,
    forkGraph.crown boxDomain Prod.mk .ibp (1 / 10000000) .vSlope false (inputTensorsBox .ibp (fun _ => 1) (fun _ => 2)) 2 4 [0, 1, 2, 3]
      (fun v => toString v) [3, 2] [] = .ok [.vec [1] u3, .vec [1] l3, .vec [1] u2, .vec [1] l2] ∧
    ∀ p ∈ Box (fun _ => (1 : ℝ)) (fun _ => 2), ∀ k, l3 k ≤ softsign (p k) ∧ softsign (p k) ≤ u3 k ∧ l2 k ≤ Real.tanh (p k) ∧ Real.tanh (p k) ≤ u2 k := by
  obtain ⟨h1, h2, h3⟩ := forkGraph_ok
  obtain ⟨r, e, h⟩ := C139_sound_partial boxDomain Prod.mk .ibp (1 / 10000000) (by norm_num) .vSlope false
    (inputTensorsBox .ibp (fun _ : Idx [1] => (1 : ℝ)) (fun _ => 2)) (Box (fun _ => 1) (fun _ => 2)) (boxDomain_sound _ _) (fun _ => boxDomain_sound _ _)
    (fun p hp => C27_input_box .ibp _ _ p hp) forkGraph 2 3 [0, 1, 2, 3] h1 (by simp) (fun v => toString v) [3, 2] (by simp) (by decide +kernel) h2 h3
    (fun v hv => by
      have : v = 0 ∨ v = 1 ∨ v = 2 ∨ v = 3 := by simpa using hv
      rcases this with rfl | rfl | rfl | rfl
      · exact trivial
      · exact trivial
      · exact ⟨trivial, .inr rfl⟩
      · exact ⟨trivial, .inl rfl⟩)
    (fun v hv => by
      have : v = 0 ∨ v = 1 ∨ v = 2 ∨ v = 3 := by simpa using hv
      rcases this with rfl | rfl | rfl | rfl <;> exact trivial)
    (fun h => by cases h)
    (fun fw w hfw hw v hv => by
      obtain rfl : fw = fun _ => none := funext hfw
      have key := forkGraph_received w hw
      have : v = 0 ∨ v = 1 ∨ v = 2 ∨ v = 3 := by simpa using hv
      rcases this with rfl | rfl | rfl | rfl
      · exact trivial
      · exact fun f _ => trivial
      · intro f hf k
        obtain ⟨e1, e2⟩ := key f hf k
        change OneSided _ (f.lc k) (f.uc k)
        rw [e1, e2]
        exact .inr (by norm_num)
      · intro f hf k
        obtain ⟨e1, e2⟩ := key f hf k
        change OneSided _ (f.lc k) (f.uc k)
        rw [e1, e2]
        exact .inr (by norm_num))
  refine ⟨_, _, _, _, e, fun p hp k => ?_⟩
  let y : (v : ℕ) → Idx (forkGraph.sh v) → ℝ := fun v => match v with
    | 2 => fun k => Real.tanh (p k)
    | 3 => fun k => softsign (p k)
    | _ => p
  have hy : forkGraph.IsValue p [0, 1, 2, 3] y := by
    intro v hv
    have : v = 0 ∨ v = 1 ∨ v = 2 ∨ v = 3 := by simpa using hv
    rcases this with rfl | rfl | rfl | rfl <;> rfl
  have a := ((h 3 (by simp)).2 p hp y hy).const rfl k
  have b := ((h 2 (by simp)).2 p hp y hy).const rfl k
  exact ⟨a.1, a.2, b.1, b.2⟩

/-- C139: `back_bounds` for both outputs of that model. -/
example : forkGraph.crown boxDomain Prod.mk .ibp (1 / 10000000) .vSlope false (inputTensorsBox .ibp (fun _ => 1) (fun _ => 2)) 2 4 [0, 1, 2, 3]
    (fun v => toString v) [3, 2] (Back.identity : Back (Idx [1]) (Idx [1]) ℝ).toB = .error .notImplemented :=
  C139_backBounds_several boxDomain Prod.mk .ibp _ .vSlope false _ forkGraph 2 3 [0, 1, 2, 3] forkGraph_ok.1 _ [3, 2] (by simp) _ (by simp [Back.toB])

/-- C139: the model of `expGraph` has an `exponential` and a product, and raises. -/
example (uf : Bool) : ∃ e, expGraph.crown boxDomain Prod.mk .hybrid (1 / 10000000) .vSlope uf (inputTensorsBox .hybrid (fun _ => 1) (fun _ => 2)) 2 3
    [0, 1, 2] (fun v => toString v) [2] [] = .error e := by
  obtain ⟨h1, h2, h3⟩ := expGraph_ok
  exact C139_raises boxDomain Prod.mk .hybrid _ .vSlope uf _ expGraph 2 2 [0, 1, 2] h1 _ 2 (by simp) h2 h3 1 (by simp) rfl []

end Decomon
