import Verif.Lemmas.Unfold
import Verif.Props.CrownGraph

/-! Property C141: converting a graph with the dictionaries of the code is converting the expression that the graph stands for. -/

namespace Decomon

section
variable {X : Type} {n : ℕ}

/-- C141: a graph whose nodes are inputs, layers of `Model/Network.lean` and merge layers on two inputs has an expression. -/
theorem C141_expression (G : KGraph n) (order : List ℕ) (ht : Topological G.parents order) (hG : ∀ v ∈ order, (G.op v).InNet) :
    ∃ N, G.IsNet order N := by
  classical
  have : ∀ v, Nonempty (Net ℝ (Idx [n]) (Idx (G.sh v))) := fun v => ⟨.layer .input (.dense (fun _ _ => 0) fun _ => 0)⟩
  obtain ⟨N, hN⟩ := exists_nodes G.parents (T := fun v => Net ℝ (Idx [n]) (Idx (G.sh v)))
    (fun v N => if h : ∃ N', (G.op v).IsNet (HList.ofNodes N (G.parents v)) N' then h.choose else Classical.arbitrary _)
    (fun v g g' h => by
      rw [ofNodes_congr (F := fun s => Net ℝ (Idx [n]) (Idx s)) (sh := G.sh) g g' _ h]) ht
  refine ⟨N, fun v hv => ?_⟩
  have h := (G.op v).isNet_exists (hG v hv) (HList.ofNodes N (G.parents v))
  rw [hN v hv, dif_pos h]
  exact h.choose_spec

/-- C141: the value of a node is the value of its expression. -/
theorem C141_value (G : KGraph n) (order : List ℕ) (ht : Topological G.parents order) (N : (v : ℕ) → Net ℝ (Idx [n]) (Idx (G.sh v)))
    (hN : G.IsNet order N) (p : Idx [n] → ℝ) (y : (v : ℕ) → Idx (G.sh v) → ℝ) (hy : G.IsValue p order y) : ∀ v ∈ order, y v = (N v).eval p := by
  refine topological_induction G.parents ht _ fun v hv ih => ?_
  rw [hy v hv]
  exact (G.op v).eval_isNet p _ _ _ (hN v hv) (hAll_nodes (σ := List ℕ) (F := fun s => Idx s → ℝ) (G := fun s => Net ℝ (Idx [n]) (Idx s))
    (sh := G.sh) (P := fun _ y N => y = N.eval p) y N (G.parents v) ih)

theorem net_wf (G : KGraph n) (order : List ℕ) (ht : Topological G.parents order) (N : (v : ℕ) → Net ℝ (Idx [n]) (Idx (G.sh v)))
    (hN : G.IsNet order N) (hG : ∀ v ∈ order, (G.op v).WF) : ∀ v ∈ order, (N v).WF := by
  refine topological_induction G.parents ht _ fun v hv ih => ?_
  exact ((G.op v).wf_isNet (HList.ofNodes (F := fun _ => Unit) (sh := G.sh) (fun _ => ()) (G.parents v)) _ _ (hN v hv)).1 (hG v hv)
    (hAll_nodes (σ := List ℕ) (F := fun _ => Unit) (G := fun s => Net ℝ (Idx [n]) (Idx s)) (sh := G.sh) (P := fun _ _ N => N.WF) _ N _ ih)

theorem net_noMultiply (G : KGraph n) (order : List ℕ) (ht : Topological G.parents order) (N : (v : ℕ) → Net ℝ (Idx [n]) (Idx (G.sh v)))
    (hN : G.IsNet order N) (hG : ∀ v ∈ order, (G.op v).NotMultiply) : ∀ v ∈ order, (N v).NoMultiply := by
  refine topological_induction G.parents ht _ fun v hv ih => ?_
  exact ((G.op v).wf_isNet (HList.ofNodes (F := fun _ => Unit) (sh := G.sh) (fun _ => ()) (G.parents v)) _ _ (hN v hv)).2.1 (hG v hv)
    (hAll_nodes (σ := List ℕ) (F := fun _ => Unit) (G := fun s => Net ℝ (Idx [n]) (Idx s)) (sh := G.sh) (P := fun _ _ N => N.NoMultiply) _ N _ ih)

theorem net_chain (G : KGraph n) (order : List ℕ) (ht : Topological G.parents order) (N : (v : ℕ) → Net ℝ (Idx [n]) (Idx (G.sh v)))
    (hN : G.IsNet order N) (hG : ∀ v ∈ order, (G.op v).InChain) : ∀ v ∈ order, (N v).Chain := by
  refine topological_induction G.parents ht _ fun v hv ih => ?_
  exact ((G.op v).wf_isNet (HList.ofNodes (F := fun _ => Unit) (sh := G.sh) (fun _ => ()) (G.parents v)) _ _ (hN v hv)).2.2 (hG v hv)
    (hAll_nodes (σ := List ℕ) (F := fun _ => Unit) (G := fun s => Net ℝ (Idx [n]) (Idx s)) (sh := G.sh) (P := fun _ _ N => N.Chain) _ N _ ih)

/-- The tensors of every node agree with those of its expression. -/
theorem bounds_agree (D : PertDomain X (Idx [n]) ℝ) (m : Mode) (eps : ℝ) (slope : Slope) (inp : Full X (Idx [n]) (Idx [n]) ℝ) (G : KGraph n)
    (order : List ℕ) (ht : Topological G.parents order) (N : (v : ℕ) → Net ℝ (Idx [n]) (Idx (G.sh v))) (hN : G.IsNet order N)
    (f : (v : ℕ) → Full X (Idx [n]) (Idx (G.sh v)) ℝ) (hf : G.IsBounds D m eps slope inp order f) :
    ∀ v ∈ order, Agree m (f v) ((N v).forward D m eps slope inp) := by
  refine topological_induction G.parents ht _ fun v hv ih => ?_
  have h := (G.op v).forward_agree D m eps slope inp _ _ _ (hN v hv) (hAll_nodes (σ := List ℕ) (F := fun s => Full X (Idx [n]) (Idx s) ℝ)
    (G := fun s => Net ℝ (Idx [n]) (Idx s)) (sh := G.sh) (P := fun _ f N => Agree m f (N.forward D m eps slope inp)) f N (G.parents v) ih)
  rw [hf v hv]
  exact (agree_carried _ _ (h.x.trans (Net.forward_x ..))).trans h

/-- C141: with the methods `forward-*`, the conversion of a graph returns the tensors of its expression, for every domain, mode, slope and
finetuning parameters. -/
theorem C141_forward (D : PertDomain X (Idx [n]) ℝ) (m mTo : Mode) (hm : m ≠ .ibp ∨ mTo = .ibp) (eps : ℝ) (slope : Slope)
    (inp : Full X (Idx [n]) (Idx [n]) ℝ) (G : KGraph n) (M fuel : ℕ) (order : List ℕ) (ht : Topological G.parents order) (nameOf : ℕ → String) (o : ℕ)
    (ho : o ∈ order) (hlong : LongestFromInput G.parents o M) (hreach : ∀ v ∈ order, ∃ k, Walk G.parents v o k)
    (N : (v : ℕ) → Net ℝ (Idx [n]) (Idx (G.sh v))) (hN : G.IsNet order N) :
    G.convert D m mTo eps slope inp M (fuel + 1) order nameOf o = .ok ((convert2Mode D m mTo ((N o).forward D m eps slope inp)).toList mTo) := by
  obtain ⟨f, hf, e⟩ := C131_convert D m mTo eps slope inp G M fuel order ht nameOf o ho hlong hreach
  rw [e, convert2Mode_agree hm (bounds_agree D m eps slope inp G order ht N hN f hf o ho)]

/-- The backward pass of a node and of its expression. -/
def CrownSame (c : CrownCfg X (Idx [n]) ℝ) (s : List ℕ) (w : GNode n s × Except PyErr (Full X (Idx [n]) (Idx s) ℝ)) (N : Net ℝ (Idx [n]) (Idx s)) : Prop :=
  (w.1.first = (c.node N).first ∧ ∀ (d : List ℕ) (B : Back (Idx s) (Idx d) ℝ), w.1.next d B = (c.node N).next (Idx d) B) ∧
  ∀ {τ : Type} (F : Full X (Idx [n]) (Idx s) ℝ → τ), (∀ f g, Agree c.m f g → F f = F g) → w.2.map F = (c.childInput N (c.node N)).map F

theorem KOp.node_same (c : CrownCfg X (Idx [n]) ℝ) {as : List (List ℕ)} {b : List ℕ} (o : KOp n as b) (ho : o.InChain)
    (ws : HList (fun s => GNode n s × Except PyErr (Full X (Idx [n]) (Idx s) ℝ)) as) (Ns : HList (fun s => Net ℝ (Idx [n]) (Idx s)) as)
    (N : Net ℝ (Idx [n]) (Idx b)) (hN : o.IsNet Ns N) (h : HAll (CrownSame c) ws Ns) :
    (o.node c.D c.m c.eps c.slope c.inp ws).first = (c.node N).first ∧
      ∀ (d : List ℕ) (B : Back (Idx b) (Idx d) ℝ), (o.node c.D c.m c.eps c.slope c.inp ws).next d B = (c.node N).next (Idx d) B := by
  cases o with
  | input => obtain rfl := hN; exact ⟨rfl, fun _ _ => rfl⟩
  | layer l =>
    cases l with
    | lay l =>
      cases h with
      | @cons _ _ w N0 _ _ h _ =>
        obtain rfl := hN
        obtain ⟨⟨h1, h2⟩, h3⟩ := h
        have e : w.2.bind ((Step.lay l).back c.D c.m c.eps c.slope) = (c.childInput N0 (c.node N0)).map (l.backward c.D c.m c.eps c.slope) := by
          rw [← h3 (l.backward c.D c.m c.eps c.slope) fun f g h => l.backward_agree c.eps c.slope h]
          cases w.2 <;> rfl
        simp only [KOp.node, CrownCfg.node, e]
        cases (c.childInput N0 (c.node N0)) with
        | error e => exact ⟨rfl, fun _ _ => rfl⟩
        | ok f => exact ⟨h2 _ _, fun d B => h2 _ _⟩
    | _ => exact ho.elim
  | _ => exact ho.elim

/-- The backward pass from every node is that of its expression. -/
theorem crown_same (c : CrownCfg X (Idx [n]) ℝ) (G : KGraph n) (order : List ℕ) (ht : Topological G.parents order)
    (hc : ∀ v ∈ order, (G.op v).InChain) (N : (v : ℕ) → Net ℝ (Idx [n]) (Idx (G.sh v))) (hN : G.IsNet order N)
    (fw : (v : ℕ) → Option (Full X (Idx [n]) (Idx (G.sh v)) ℝ)) (hfw : G.IsForward c.D c.m c.eps c.slope c.useForward c.inp order fw)
    (w : (v : ℕ) → GNode n (G.sh v)) (hw : G.IsCrown c.D c.stack c.m c.eps c.slope c.inp order fw w) :
    ∀ v ∈ order, CrownSame c _ (w v, crownOut c.D c.stack c.m c.inp (fw v) (w v)) (N v) := by
  refine topological_induction G.parents ht _ fun v hv ih => ?_
  have h := (G.op v).node_same c (hc v hv) _ _ _ (hN v hv) (hAll_nodes (σ := List ℕ)
    (F := fun s => GNode n s × Except PyErr (Full X (Idx [n]) (Idx s) ℝ)) (G := fun s => Net ℝ (Idx [n]) (Idx s)) (sh := G.sh)
    (P := CrownSame c) (fun u => (w u, crownOut c.D c.stack c.m c.inp (fw u) (w u))) N (G.parents v) ih)
  rw [← hw v hv] at h
  refine ⟨h, fun F hF => ?_⟩
  cases hu : c.useForward with
  | true =>
    rw [hu] at hfw
    obtain ⟨f, hf, e⟩ := hfw
    have ha := bounds_agree c.D c.m c.eps c.slope c.inp G order ht N hN f hf v hv
    simp only [crownOut, e v hv, CrownCfg.childInput, hu, if_true, Except.map]
    rw [hF _ _ ha]
  | false =>
    rw [hu] at hfw
    have : fw v = none := hfw v
    simp only [crownOut, this, CrownCfg.childInput, hu, Bool.false_eq_true, if_false, h.1]

theorem KOp.hasBack_of_chain {as : List (List ℕ)} {b : List ℕ} (o : KOp n as b) (h : o.InChain) : o.HasBack := by
  cases o with
  | input => trivial
  | layer l =>
    cases l with
    | lay l => trivial
    | _ => exact h.elim
  | _ => exact h.elim

theorem KOp.inNet_of_chain {as : List (List ℕ)} {b : List ℕ} (o : KOp n as b) (h : o.InChain) : o.InNet := by
  cases o with
  | input => trivial
  | layer l =>
    cases l with
    | lay l => trivial
    | _ => exact h.elim
  | _ => exact h.elim

/-- C141: with the methods `crown` and `crown-forward-*`, the conversion of a graph (without merge layers, which raise: `C139_raises`) returns
the tensors of its expression. -/
theorem C141_backward (c : CrownCfg X (Idx [n]) ℝ) (mTo : Mode) (hm : c.m ≠ .ibp ∨ mTo = .ibp) (G : KGraph n) (M fuel : ℕ) (order : List ℕ)
    (ht : Topological G.parents order) (hf : order.length ≤ fuel + 1) (nameOf : ℕ → String) (o : ℕ) (ho : o ∈ order)
    (hlong : LongestFromInput G.parents o M) (hreach : ∀ v ∈ order, ∃ k, Walk G.parents v o k) (hc : ∀ v ∈ order, (G.op v).InChain)
    (N : (v : ℕ) → Net ℝ (Idx [n]) (Idx (G.sh v))) (hN : G.IsNet order N) :
    ∃ out, c.model (N o) = .ok out ∧
      G.convertBackward c.D c.stack c.m mTo c.eps c.slope c.useForward c.inp M (fuel + 1) order nameOf o =
        .ok (((convert2Mode c.D c.m mTo out).toList mTo).map Ten.toB) := by
  obtain ⟨fw, w, hfw, hw, R, hR, e⟩ := C139_convert c.D c.stack c.m c.eps c.slope c.useForward c.inp G M fuel order ht hf nameOf [o]
    (by simpa using ho) (by simp) (by simpa using hlong) (by simpa using hreach) fun v hv => (G.op v).hasBack_of_chain (hc v hv)
  have h := (crown_same c G order ht hc N hN fw hfw w hw o ho).1.1
  refine ⟨convert2BackwardMode c.D c.stack c.m c.inp (R o), ?_, ?_⟩
  · rw [CrownCfg.model, ← h, hR o ho]; rfl
  · simp only [KGraph.convertBackward, e, List.flatMap_cons, List.flatMap_nil, List.append_nil, Except.bind, readListB_toList, Except.map]
    rw [convert2Mode_agree hm (agree_carried _ _ (crown_x ..))]

/-- C141: the same with `back_bounds`. -/
theorem C141_backBounds (c : CrownCfg X (Idx [n]) ℝ) (G : KGraph n) (M fuel : ℕ) (order : List ℕ)
    (ht : Topological G.parents order) (hf : order.length ≤ fuel + 1) (nameOf : ℕ → String) (o : ℕ) (ho : o ∈ order)
    (hlong : LongestFromInput G.parents o M) (hreach : ∀ v ∈ order, ∃ k, Walk G.parents v o k) (hc : ∀ v ∈ order, (G.op v).InChain)
    (N : (v : ℕ) → Net ℝ (Idx [n]) (Idx (G.sh v))) (hN : G.IsNet order N) {d : List ℕ} (C : Idx (G.sh o) → Idx d → ℝ) :
    ∃ out, c.modelBack (N o) C = .ok out ∧
      G.crown c.D c.stack c.m c.eps c.slope c.useForward c.inp M (fuel + 1) order nameOf [o]
        (Back.toB ⟨C, fun _ => 0, C, fun _ => 0⟩) = .ok ((out.toList c.m).map Ten.toB) := by
  obtain ⟨fw, hfw⟩ := exists_isForward c.D c.m c.eps c.slope c.useForward c.inp G order ht
  obtain ⟨w, hw⟩ := exists_isCrown c.D c.stack c.m c.eps c.slope c.inp G order ht fw
  have hb : ∀ v ∈ order, (G.op v).HasBack := fun v hv => (G.op v).hasBack_of_chain (hc v hv)
  obtain ⟨-, hn, -⟩ := crown_total c.D c.stack c.m c.eps c.slope c.inp G order ht fw (isForward_carried hfw) w hw hb o ho
  obtain ⟨R, hR⟩ := hn d ⟨C, fun _ => 0, C, fun _ => 0⟩
  have h := (crown_same c G order ht hc N hN fw hfw w hw o ho).1.2 d ⟨C, fun _ => 0, C, fun _ => 0⟩
  refine ⟨convert2BackwardMode c.D c.stack c.m c.inp R, ?_, ?_⟩
  · rw [CrownCfg.modelBack, ← h, hR]; rfl
  · have := crown_ok c.D c.stack c.m c.eps c.slope c.useForward c.inp G M fuel order ht hf nameOf [o]
      (Back.toB ⟨C, fun _ => 0, C, fun _ => 0⟩) (.inr rfl) (by simpa using ho) (by simp)
      (by simpa using hlong) (by simpa using hreach) hb fw hfw w hw (fun _ => ((convert2BackwardMode c.D c.stack c.m c.inp R).toList c.m).map Ten.toB)
      fun o' ho' => by
        obtain rfl : o' = o := by simpa using ho'
        exact .inr ⟨d, ⟨C, fun _ => 0, C, fun _ => 0⟩, R, rfl, hR, rfl⟩
    simpa using this

end

/-! ### Concrete graphs -/

/-- `relu(x) + x`, one entry. -/
def reluPlusGraph : KGraph 1 where
  parents := fun v => match v with | 1 => [0] | 2 => [1, 0] | _ => []
  sh := fun _ => [1]
  op := fun v => match v with
    | 0 => .input
    | 1 => .layer (.lay (.relu (fun _ => 0) fun _ => 0))
    | 2 => .merge .add [1] 1
    | _ + 3 => .input

/-- Its expressions. -/
def reluPlusNet : ℕ → Net ℝ (Idx [1]) (Idx [1])
  | 1 => .layer .input (.relu (fun _ => 0) fun _ => 0)
  | 2 => .merge .add (.layer .input (.relu (fun _ => 0) fun _ => 0)) .input
  | _ => .input

theorem reluPlus_isNet : reluPlusGraph.IsNet [0, 1, 2] reluPlusNet := by
  intro v hv
  have : v = 0 ∨ v = 1 ∨ v = 2 := by simpa using hv
  rcases this with rfl | rfl | rfl
  · exact rfl
  · exact rfl
  · exact ⟨rfl, rfl⟩

theorem reluPlus_ok : Topological reluPlusGraph.parents [0, 1, 2] ∧ LongestFromInput reluPlusGraph.parents 2 2 ∧
    ∀ v ∈ [0, 1, 2], ∃ k, Walk reluPlusGraph.parents v 2 k :=
  chain3_ok reluPlusGraph.parents rfl rfl (by simp [reluPlusGraph]) fun v p hp => by
    match v, hp with
    | 0, hp => simp [reluPlusGraph] at hp
    | 1, hp => simp [reluPlusGraph] at hp; omega
    | 2, hp => simp [reluPlusGraph] at hp; omega
    | _ + 3, hp => simp [reluPlusGraph] at hp

/-- The forward conversion of the graph is the forward pass of `relu(x) + x`, with every domain, mode and input. -/
example {X : Type} (D : PertDomain X (Idx [1]) ℝ) (m : Mode) (inp : Full X (Idx [1]) (Idx [1]) ℝ) :
    reluPlusGraph.convert D m .ibp (1 / 10000000) .vSlope inp 2 4 [0, 1, 2] (fun v => toString v) 2 =
      .ok ((convert2Mode D m .ibp (Net.forward D m (1 / 10000000) .vSlope inp
        (.merge .add (.layer .input (.relu (fun _ => 0) fun _ => 0)) .input))).toList .ibp) :=
  C141_forward D m .ibp (.inr rfl) (1 / 10000000) .vSlope inp reluPlusGraph 2 3 [0, 1, 2] reluPlus_ok.1 (fun v => toString v) 2 (by simp)
    reluPlus_ok.2.1 reluPlus_ok.2.2 reluPlusNet reluPlus_isNet

/-- A `Dropout`, then a ReLU, with two entries. -/
def reluTwoGraph : KGraph 2 where
  parents := fun v => match v with | 1 => [0] | 2 => [1] | _ => []
  sh := fun _ => [2]
  op := fun v => match v with
    | 0 => .input
    | 1 => .layer (.lay .skip)
    | 2 => .layer (.lay (.relu (fun _ => 0) fun _ => 0))
    | _ + 3 => .input

/-- Its expressions. -/
def reluTwoNet : ℕ → Net ℝ (Idx [2]) (Idx [2])
  | 1 => .layer .input .skip
  | 2 => .layer (.layer .input .skip) (.relu (fun _ => 0) fun _ => 0)
  | _ => .input

theorem reluTwo_isNet : reluTwoGraph.IsNet [0, 1, 2] reluTwoNet := by
  intro v hv
  have : v = 0 ∨ v = 1 ∨ v = 2 := by simpa using hv
  rcases this with rfl | rfl | rfl <;> exact rfl

theorem reluTwo_ok : Topological reluTwoGraph.parents [0, 1, 2] ∧ LongestFromInput reluTwoGraph.parents 2 2 ∧
    ∀ v ∈ [0, 1, 2], ∃ k, Walk reluTwoGraph.parents v 2 k :=
  chain3_ok reluTwoGraph.parents rfl rfl (by simp [reluTwoGraph]) fun v p hp => by
    match v, hp with
    | 0, hp => simp [reluTwoGraph] at hp
    | 1, hp => simp [reluTwoGraph] at hp; omega
    | 2, hp => simp [reluTwoGraph] at hp; omega
    | _ + 3, hp => simp [reluTwoGraph] at hp

theorem reluTwo_chain : ∀ v ∈ [0, 1, 2], (reluTwoGraph.op v).InChain := fun v hv => by
  have : v = 0 ∨ v = 1 ∨ v = 2 := by simpa using hv
  rcases this with rfl | rfl | rfl <;> exact trivial

/-- The backward conversion of that graph. -/
example {X : Type} (c : CrownCfg X (Idx [2]) ℝ) : ∃ out,
    c.model (.layer (.layer .input .skip) (.relu (fun _ => 0) fun _ => 0)) = .ok out ∧
      reluTwoGraph.convertBackward c.D c.stack c.m .ibp c.eps c.slope c.useForward c.inp 2 4 [0, 1, 2] (fun v => toString v) 2 =
        .ok (((convert2Mode c.D c.m .ibp out).toList .ibp).map Ten.toB) :=
  C141_backward c .ibp (.inr rfl) reluTwoGraph 2 3 [0, 1, 2] reluTwo_ok.1 (by simp) (fun v => toString v) 2 (by simp) reluTwo_ok.2.1
    reluTwo_ok.2.2 reluTwo_chain reluTwoNet reluTwo_isNet

end Decomon
