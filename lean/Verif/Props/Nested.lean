import Verif.Model.Nested
import Verif.Props.Graph
import Verif.Props.State

/-!
Property C66: models used as layers of other models.
-/

namespace Decomon

/-! ### Graphs -/

section Graph
variable {τ : Type*}

/-- The value of a node on its inputs, a model being evaluated node by node: its input nodes have the inputs of the model, each other node the
value of what it runs on the concatenated values of its parents. -/
inductive NGraph.Value : NGraph τ → List τ → List τ → Prop
  | layer (f : List τ → List τ) (l : List τ) : Value (.layer f) l (f l)
  | model {parents : ℕ → List ℕ} {top : ℕ} {order : List ℕ} {nameOf : ℕ → String} {out : ℕ} {node : ℕ → NGraph τ} {inp : List τ}
      (val : ℕ → List τ) (hin : ∀ v ∈ order, parents v = [] → val v = inp)
      (hnode : ∀ v ∈ order, parents v ≠ [] → Value (node v) ((parents v).flatMap val) (val v)) :
      Value (.model parents top order nameOf out node) inp (val out)

/-- Every model in the tree is an acyclic graph listed in a topological order, all of whose nodes lead to its output, at depth 0. -/
def NGraph.WF : NGraph τ → Prop
  | .layer _ => True
  | .model parents top order _ out node => Topological parents order ∧ out ∈ order ∧ LongestFromInput parents out top ∧
      (∀ v ∈ order, ∃ n, Walk parents v out n) ∧ ∀ v, (node v).WF

theorem convertLoopE_pure (parents : ℕ → List ℕ) (convE : ℕ → List τ → Except PyErr (List τ)) (conv : ℕ → List τ → List τ)
    (h : ∀ v l, convE v l = .ok (conv v l)) : ∀ (visit : List ℕ) (st : List τ × (ℕ → Option (List τ))),
    convertLoopE parents convE visit st = convertLoop parents conv visit st := by
  have hn : ∀ v st, convertNodeE parents convE v st = convertNode parents conv v st := by
    intro v st
    simp only [convertNodeE, convertNode, h]
    split
    · rfl
    · cases parents v with
      | nil => rfl
      | cons p t => cases gatherParents st.2 (p :: t) <;> rfl
  intro visit
  induction visit with
  | nil => intro st; rfl
  | cons v t ih =>
    intro st
    simp only [convertLoopE, convertLoop, hn, ih]

/-- C66: the conversion of a nested model raises nothing and returns what the nodes give in line, for every depth of nesting. -/
theorem C66_inline_graph (fuel : ℕ) (g : NGraph τ) (hg : g.WF) (inp : List τ) :
    ∃ out, g.convert (fuel + 1) inp = .ok out ∧ g.Value inp out := by
  induction g generalizing inp with
  | layer f => exact ⟨f inp, rfl, .layer f inp⟩
  | model parents top order nameOf out node ih =>
    obtain ⟨ht, ho, hl, hr, hw⟩ := hg
    choose conv hconv hval using fun v l => ih v (hw v) l
    obtain ⟨val, hev, he⟩ := C47_convert_partial parents conv top fuel order ht nameOf out ho hl hr inp
    refine ⟨val out, ?_, .model val (fun v hv hp => (hev v hv).1 hp) fun v hv hp => ?_⟩
    · rw [← he]
      simp only [NGraph.convert, convertFunctionalE, convertFunctional]
      congr 1
      funext d
      rw [convertLoopE_pure parents _ conv hconv]
    · rw [(hev v hv).2 hp]
      exact hval v _

/-- C66: there is only one such value. -/
theorem C66_inline_unique (g : NGraph τ) (hg : g.WF) (inp a b : List τ) (ha : g.Value inp a) (hb : g.Value inp b) : a = b := by
  induction g generalizing inp a b with
  | layer f => cases ha; cases hb; rfl
  | model parents top order nameOf out node ih =>
    obtain ⟨ht, ho, -, -, hw⟩ := hg
    cases ha with
    | model va hia hna =>
      cases hb with
      | model vb hib hnb =>
        refine topological_induction parents ht (fun v => va v = vb v) (fun v hv ih' => ?_) out ho
        by_cases hp : parents v = []
        · rw [hia v hv hp, hib v hv hp]
        · have hf : (parents v).flatMap va = (parents v).flatMap vb := flatMap_congr_mem ih'
          refine ih v (hw v) _ _ _ (hna v hv hp) ?_
          rw [hf]
          exact hnb v hv hp

end Graph

/-- A model nested in another: the inner one is `0 → 1 → 2` with the shortcut `0 → 2`, its layer 1 adds one, its layer 2 sums; the outer one
doubles its input (node 1) and runs the inner one (node 2). -/
def nestedExample : NGraph ℤ :=
  .model (fun v => if v = 1 then [0] else if v = 2 then [1] else []) 2 [0, 1, 2] (fun v => if v = 2 then "inner" else "outer") 2 fun v =>
    if v = 2 then
      .model shortcutGraph 2 [0, 1, 2] (fun v => if v = 2 then "b" else "a") 2 fun w =>
        if w = 1 then .layer (List.map (· + 1)) else .layer fun l => [l.sum]
    else .layer (List.map (2 * ·))

/-- Non-vacuity of C66: on the input 5 the doubled value is 10, and the inner model gives 11 + 10. -/
example : nestedExample.convert 1 [5] = .ok [21] := by decide +kernel

theorem walk_le_of {parents : ℕ → List ℕ} (h : ∀ v, ∀ p ∈ parents v, p < v) {a v n : ℕ} (w : Walk parents a v n) : n ≤ v := by
  induction w with
  | nil => exact Nat.zero_le _
  | snoc _ hp ih => have := h _ _ hp; omega

theorem chain3_ok (parents : ℕ → List ℕ) (h0 : parents 0 = []) (h1 : parents 1 = [0]) (h2 : 1 ∈ parents 2)
    (hlt : ∀ v, ∀ p ∈ parents v, p < v) : Topological parents [0, 1, 2] ∧ LongestFromInput parents 2 2 ∧
      ∀ v ∈ [0, 1, 2], ∃ n, Walk parents v 2 n := by
  refine ⟨⟨by decide, fun l1 v l2 e p hp => ?_⟩, ⟨⟨0, h0, ?_⟩, fun a k _ w => walk_le_of hlt w⟩, ?_⟩
  · have hv := hlt v p hp
    match l1, e with
    | [], e => simp at e; omega
    | [a], e => simp at e; obtain ⟨rfl, rfl, -⟩ := e; simp; omega
    | [a, b], e => simp at e; obtain ⟨rfl, rfl, rfl, -⟩ := e; simp; omega
    | a :: b :: c :: t, e => simp at e
  · exact .snoc (p := 1) (.snoc (p := 0) (.nil 0) (by simp [h1])) h2
  · intro v hv
    have : v = 0 ∨ v = 1 ∨ v = 2 := by simpa using hv
    rcases this with rfl | rfl | rfl
    · exact ⟨2, .snoc (p := 1) (.snoc (p := 0) (.nil 0) (by simp [h1])) h2⟩
    · exact ⟨1, .snoc (p := 1) (.nil 1) h2⟩
    · exact ⟨0, .nil 2⟩

/-- Non-vacuity of C66: the hypothesis holds for this model. -/
example : nestedExample.WF := by
  obtain ⟨a1, a2, a3⟩ := chain3_ok (fun v => if v = 1 then [0] else if v = 2 then [1] else []) (by simp) (by simp) (by simp)
    fun v p hp => by split_ifs at hp <;> simp at hp <;> omega
  obtain ⟨b1, b2, b3⟩ := chain3_ok shortcutGraph (by simp [shortcutGraph]) (by simp [shortcutGraph]) (by simp [shortcutGraph])
    fun v p hp => by simp only [shortcutGraph] at hp; split_ifs at hp <;> simp at hp <;> omega
  refine ⟨a1, by simp, a2, a3, fun v => ?_⟩
  by_cases hv : v = 2
  · simp only [hv, if_true]
    refine ⟨b1, by simp, b2, b3, fun w => ?_⟩
    by_cases hw : w = 1 <;> simp [hw, NGraph.WF]
  · simp [hv, NGraph.WF]

/-! ### Chains of layer objects -/

section Chain
variable {V : Type*}

/-- The layers of a chain in line: each model is replaced by its layers. -/
def NChain.inLine : NChain → List ℕ
  | .nil => []
  | .layer i rest => i :: rest.inLine
  | .model sub rest => sub.inLine ++ rest.inLine

/-- What a chain computes: a model is applied as one function. -/
def NChain.fn (I : String → V → V) (h : Heap V) : NChain → V → V
  | .nil, x => x
  | .layer i rest, x => rest.fn I h ((h.obj i).fn I x)
  | .model sub rest, x => rest.fn I h (sub.fn I h x)

/-- Two memories that differ by the names of the layers only. -/
def EqUpToNames (h h' : Heap V) : Prop :=
  h.next = h'.next ∧ ∀ j, (h.obj j).isActivation = (h'.obj j).isActivation ∧ (h.obj j).act = (h'.obj j).act ∧ (h.obj j).core = (h'.obj j).core

theorem EqUpToNames.refl (h : Heap V) : EqUpToNames h h := ⟨rfl, fun _ => ⟨rfl, rfl, rfl⟩⟩

theorem EqUpToNames.symm {h h' : Heap V} (e : EqUpToNames h h') : EqUpToNames h' h :=
  ⟨e.1.symm, fun j => ⟨(e.2 j).1.symm, (e.2 j).2.1.symm, (e.2 j).2.2.symm⟩⟩

theorem EqUpToNames.trans {h h' h'' : Heap V} (e : EqUpToNames h h') (f : EqUpToNames h' h'') : EqUpToNames h h'' :=
  ⟨e.1.trans f.1, fun j => ⟨(e.2 j).1.trans (f.2 j).1, (e.2 j).2.1.trans (f.2 j).2.1, (e.2 j).2.2.trans (f.2 j).2.2⟩⟩

theorem rename_eqUp : ∀ (l : List ℕ) (h : Heap V) (c : ℕ), EqUpToNames (renameAll h c l).1 h
  | [], h, _ => .refl h
  | i :: t, h, c => (rename_eqUp t _ _).trans ⟨rfl, fun j => by by_cases e : j = i <;> simp [Function.update_apply, e]⟩

theorem split_eqUp {h h' : Heap V} (e : EqUpToNames h h') (i : ℕ) :
    EqUpToNames (splitActivation h i).1 (splitActivation h' i).1 ∧ (splitActivation h i).2 = (splitActivation h' i).2 := by
  obtain ⟨a, b, c⟩ := e.2 i
  unfold splitActivation
  rw [← b, ← a, ← e.1, ← c]
  split
  · exact ⟨e, rfl⟩
  · split
    · exact ⟨e, rfl⟩
    · refine ⟨⟨by simp [e.1], fun j => ?_⟩, rfl⟩
      by_cases h1 : j = h.next + 1
      · simp [h1]
      · by_cases h2 : j = h.next
        · subst h2; simp
        · simpa [Function.update_of_ne h1, Function.update_of_ne h2] using e.2 j

theorem cloneStep_eqUp {s s' : CloneState V} (e : EqUpToNames s.heap s'.heap) (ec : s.cache = s'.cache) (i : ℕ) :
    EqUpToNames (cloneStep s i).1.heap (cloneStep s' i).1.heap ∧ (cloneStep s i).1.cache = (cloneStep s' i).1.cache ∧
      (cloneStep s i).2 = (cloneStep s' i).2 := by
  have hc : EqUpToNames (convertedOf s.heap s.cache i).1 (convertedOf s'.heap s'.cache i).1 ∧
      (convertedOf s.heap s.cache i).2 = (convertedOf s'.heap s'.cache i).2 := by
    unfold convertedOf
    rw [← ec]
    cases s.cache i with
    | some l => exact ⟨e, rfl⟩
    | none => exact split_eqUp e i
  refine ⟨?_, ?_, hc.2⟩
  · exact ((rename_eqUp _ _ _).trans hc.1).trans (rename_eqUp _ _ _).symm
  · simp only [cloneStep]
    rw [hc.2, ec]

theorem cloneNested_eqUp (inner : NChain → ℕ) : ∀ (c : NChain) (s s' : CloneState V), EqUpToNames s.heap s'.heap → s.cache = s'.cache →
    EqUpToNames (cloneNested inner c s).1.heap (cloneLoop c.inLine s').1.heap ∧
      (cloneNested inner c s).1.cache = (cloneLoop c.inLine s').1.cache ∧ (cloneNested inner c s).2 = (cloneLoop c.inLine s').2
  | .nil, _, _, e, ec => ⟨e, ec, rfl⟩
  | .layer i rest, s, s', e, ec => by
    obtain ⟨a, b, c⟩ := cloneStep_eqUp e ec i
    obtain ⟨a', b', c'⟩ := cloneNested_eqUp inner rest _ _ a b
    refine ⟨a', b', ?_⟩
    simp only [cloneNested, NChain.inLine, cloneLoop, c, c']
  | .model sub rest, s, s', e, ec => by
    obtain ⟨a, b, c⟩ := cloneNested_eqUp inner sub s s' e ec
    obtain ⟨a', b', c'⟩ := cloneNested_eqUp inner rest ⟨(cloneNested inner sub s).1.heap, s.count + inner sub,
      (cloneNested inner sub s).1.cache⟩ (cloneLoop sub.inLine s').1 a b
    simp only [cloneNested, NChain.inLine, cloneLoop_append, c, c']
    exact ⟨a', b', trivial⟩

theorem fn_inLine (I : String → V → V) (h : Heap V) : ∀ (c : NChain) (x : V), c.fn I h x = chainFn I h c.inLine x
  | .nil, _ => rfl
  | .layer i rest, x => by simp only [NChain.fn, NChain.inLine, chainFn]; exact fn_inLine I h rest _
  | .model sub rest, x => by
    simp only [NChain.fn, NChain.inLine, chainFn_append]
    rw [fn_inLine I h sub, fn_inLine I h rest]

/-- C66: preprocessing a chain with nested models gives the very layer objects that preprocessing its layers in line gives, in the same
order; the objects differ by their names only. -/
theorem C66_inline_objects (inner : NChain → ℕ) (h : Heap V) (c : NChain) :
    (preprocessNested inner h c).2 = (preprocessChain h c.inLine).2 ∧
      EqUpToNames (preprocessNested inner h c).1 (preprocessChain h c.inLine).1 := by
  obtain ⟨a, -, b⟩ := cloneNested_eqUp inner c (⟨h, 0, fun _ => none⟩ : CloneState V) ⟨h, 0, fun _ => none⟩ (.refl h) rfl
  exact ⟨b, a⟩

theorem EqUpToNames.chainFn {h h' : Heap V} (e : EqUpToNames h h') (I : String → V → V) (l : List ℕ) (x : V) :
    Decomon.chainFn I h l x = Decomon.chainFn I h' l x := by
  induction l generalizing x with
  | nil => rfl
  | cons i t ih =>
    have hf : (h.obj i).fn I x = (h'.obj i).fn I x := by
      obtain ⟨-, b, c⟩ := e.2 i
      simp only [LayerObj.fn, b, c]
    have := ih ((h'.obj i).fn I x)
    simpa only [Decomon.chainFn, List.foldl_cons, hf] using this

/-- C66: the preprocessed model computes what the user's nested model computes, and the user's layers compute what they did. -/
theorem C66_inline_fn (I : String → V → V) (hlin : I "linear" = id) (inner : NChain → ℕ) (h : Heap V) (c : NChain)
    (hm : ∀ i ∈ c.inLine, i < h.next) (x : V) :
    chainFn I (preprocessNested inner h c).1 (preprocessNested inner h c).2 x = c.fn I h x ∧
      c.fn I (preprocessNested inner h c).1 x = c.fn I h x := by
  obtain ⟨a, b⟩ := C66_inline_objects inner h c
  obtain ⟨f, g⟩ := C53_split I hlin h c.inLine hm x
  rw [a, b.chainFn, fn_inLine, fn_inLine, b.chainFn]
  exact ⟨f, g⟩

end Chain

/-- Non-vacuity of C66: layer 0 (adds 3, then "relu"), then a model made of layer 1 (doubles) and layer 0 again: the two halves
of layer 0 are created once and used twice. -/
example :
    let h : Heap ℤ := ⟨2, fun i => if i = 0 then ⟨"a", false, some "relu", (· + 3)⟩ else ⟨"b", false, some "linear", (2 * ·)⟩⟩
    let c : NChain := .layer 0 (.model (.layer 1 (.layer 0 .nil)) .nil)
    (preprocessNested (fun _ => 2) h c).2 = [2, 3, 1, 2, 3] ∧
      chainFn (fun s x => if s = "relu" then max x 0 else x) (preprocessNested (fun _ => 2) h c).1 [2, 3, 1, 2, 3] (-1) = 7 := by
  decide +kernel

/-! ### The backward pass -/

section Backward
variable {τ : Type*}

/-- C66: the disconnected input that the backward pass builds for a nested model raises `ValueError` in every mode: seven tensors are unpacked
into nine names. -/
theorem C66_disconnected (m : Mode) (e : τ) (ops : DiscoOps τ) (inputs : List τ) : discoPriv m e ops inputs = .error .valueError := by
  have hf : ∀ er, fullInputsList m false e inputs = .error er → er = .valueError := by
    intro er
    unfold fullInputsList
    split <;> simp_all
  unfold discoPriv
  cases h : fullInputsList m false e inputs with
  | error er => rw [hf er h]; rfl
  | ok t => cases m <;> rfl

/-- C66: hence a backward pass that meets a nested model returns no bounds, whatever the layers above and below it: it raises `ValueError` as
soon as the layers above raise nothing. -/
theorem C66_backward_raises (m : Mode) (e : τ) (ops : DiscoOps τ) (merge : List τ → List τ → List τ)
    (above below : List (CrownOp τ × List τ)) (f : List τ → Except PyErr (List τ)) (inp b : List τ)
    (ha : ∀ q ∈ above, ∃ g r, q.1 = .layer g ∧ g q.2 = .ok r) :
    crownRec m e ops merge (above ++ (.model f, inp) :: below) b = .error .valueError := by
  induction above generalizing b with
  | nil => simp only [List.nil_append, crownRec, C66_disconnected]; rfl
  | cons q t ih =>
    obtain ⟨g, r, h1, h2⟩ := ha q (by simp)
    obtain ⟨op, i⟩ := q
    simp only at h1 h2
    subst h1
    simp only [List.cons_append, crownRec, h2, Except.bind]
    exact ih _ fun q hq => ha q (by simp [hq])

/-- C66: it returns no bounds even if a layer above raises something. -/
theorem C66_backward_no_bounds (m : Mode) (e : τ) (ops : DiscoOps τ) (merge : List τ → List τ → List τ)
    (nodes : List (CrownOp τ × List τ)) (h : ∃ q ∈ nodes, ∃ f, q.1 = .model f) (b r : List τ) :
    crownRec m e ops merge nodes b ≠ .ok r := by
  induction nodes generalizing b with
  | nil => simp at h
  | cons q t ih =>
    obtain ⟨op, i⟩ := q
    cases op with
    | model f => simp [crownRec, C66_disconnected, Except.bind]
    | layer f =>
      simp only [crownRec]
      cases f i with
      | error er => simp [Except.bind]
      | ok nb =>
        refine ih ?_ _
        obtain ⟨q, hq, g, hg⟩ := h
        rcases List.mem_cons.mp hq with rfl | hq
        · cases hg
        · exact ⟨q, hq, g, hg⟩

/-- C66: without nested model and if no layer raises, the backward pass returns bounds. -/
theorem C66_backward_returns (m : Mode) (e : τ) (ops : DiscoOps τ) (merge : List τ → List τ → List τ)
    (nodes : List (CrownOp τ × List τ)) (ha : ∀ q ∈ nodes, ∃ g r, q.1 = .layer g ∧ g q.2 = .ok r) (b : List τ) :
    ∃ r, crownRec m e ops merge nodes b = .ok r := by
  induction nodes generalizing b with
  | nil => exact ⟨b, rfl⟩
  | cons q t ih =>
    obtain ⟨g, r, h1, h2⟩ := ha q (by simp)
    obtain ⟨op, i⟩ := q
    simp only at h1 h2
    subst h1
    simp only [crownRec, h2, Except.bind]
    exact ih (fun q hq => ha q (by simp [hq])) _

/-- C66: without nested model the bounds returned are the composition of those of the layers, the nodes being given from the output to the
input.  `fn` is the meaning of a list of tensors as a map of bounds; `MergeWithPrevious` composes, its first argument being applied first. -/
theorem C66_backward_order {β : Type*} (m : Mode) (e : τ) (ops : DiscoOps τ) (merge : List τ → List τ → List τ) (fn : List τ → β → β)
    (hne : ∀ a b, merge a b ≠ []) (hm : ∀ a b z, fn (merge a b) z = fn b (fn a z)) (nodes : List ((List τ → Except PyErr (List τ)) × List τ))
    (res : List (List τ)) (hr : List.Forall₂ (fun q r => q.1 q.2 = .ok r ∧ r ≠ []) nodes res) (b : List τ) (hb : b ≠ []) :
    ∃ r, crownRec m e ops merge (nodes.map fun q => (.layer q.1, q.2)) b = .ok r ∧ ∀ z, fn r z = fn b (res.foldr fn z) := by
  induction hr generalizing b with
  | nil => exact ⟨b, rfl, fun z => rfl⟩
  | @cons q r ql rl h _ ih =>
    have he : b.isEmpty = false := by simpa using hb
    obtain ⟨r', h1, h2⟩ := ih (merge r b) (hne _ _)
    refine ⟨r', ?_, fun z => ?_⟩
    · simp only [List.map_cons, crownRec, h.1, Except.bind, he, Bool.false_eq_true, if_false]
      exact h1
    · rw [h2, hm]; rfl

/-- C66: the same from the output of the model, without bounds to start from. -/
theorem C66_backward_order_first {β : Type*} (m : Mode) (e : τ) (ops : DiscoOps τ) (merge : List τ → List τ → List τ) (fn : List τ → β → β)
    (hne : ∀ a b, merge a b ≠ []) (hm : ∀ a b z, fn (merge a b) z = fn b (fn a z)) (q : (List τ → Except PyErr (List τ)) × List τ) (r0 : List τ)
    (h0 : q.1 q.2 = .ok r0 ∧ r0 ≠ []) (nodes : List ((List τ → Except PyErr (List τ)) × List τ)) (res : List (List τ))
    (hr : List.Forall₂ (fun q r => q.1 q.2 = .ok r ∧ r ≠ []) nodes res) :
    ∃ r, crownRec m e ops merge ((q :: nodes).map fun q => (.layer q.1, q.2)) [] = .ok r ∧ ∀ z, fn r z = (r0 :: res).foldr fn z := by
  obtain ⟨r, h1, h2⟩ := C66_backward_order m e ops merge fn hne hm nodes res hr r0 h0.2
  refine ⟨r, ?_, h2⟩
  simp only [List.map_cons, crownRec, h0.1, Except.bind, List.isEmpty_nil, if_true]
  exact h1

/-- Non-vacuity: two layers `z ↦ 2 z` (below) and `z ↦ z + 1` (above), as pairs `[slope, offset]`. -/
example : ∃ r, crownRec .ibp (0 : ℚ) ⟨fun a _ => a, id, id, id⟩ (fun a b => [(b.headD 0) * (a.headD 0), (b.headD 0) * (a.getD 1 0) + b.getD 1 0])
      [(.layer fun _ => .ok [1, 1], []), (.layer fun _ => .ok [2, 0], [])] [] = .ok r ∧ ∀ z : ℚ, (r.headD 0) * z + r.getD 1 0 = 2 * z + 1 := by
  obtain ⟨r, h, h'⟩ := C66_backward_order_first .ibp (0 : ℚ) ⟨fun a _ => a, id, id, id⟩
    (fun a b => [(b.headD 0) * (a.headD 0), (b.headD 0) * (a.getD 1 0) + b.getD 1 0]) (fun a z => (a.headD 0) * z + a.getD 1 0)
    (fun _ _ => by simp) (fun a b z => by simp; ring) (fun _ => .ok [1, 1], []) [1, 1] ⟨rfl, by simp⟩ [(fun _ => .ok [2, 0], [])] [[2, 0]]
    (.cons ⟨rfl, by simp⟩ .nil)
  exact ⟨r, h, fun z => by rw [h' z]; simp⟩

/-- C66: the claim that the backward pass itself returns bounds for a nested model is false: one nested model that would return its input. -/
theorem C66_nested_refuted :
    ¬ ∀ (m : Mode) (e : ℤ) (ops : DiscoOps ℤ) (merge : List ℤ → List ℤ → List ℤ) (inp : List ℤ), inp.length = nbTensors m false →
      ∃ r, crownRec m e ops merge [(.model Except.ok, inp)] [] = .ok r := by
  intro h
  obtain ⟨r, hr⟩ := h .ibp 0 ⟨fun _ _ => 0, id, id, id⟩ (fun a _ => a) [1, 0] rfl
  revert hr
  simp [crownRec, C66_disconnected, Except.bind]

end Backward

/-- Non-vacuity of C66: the same two nodes, with a layer instead of the model, give bounds. -/
example : crownRec .ibp (0 : ℤ) ⟨fun _ _ => 0, id, id, id⟩ (fun a b => List.zipWith (· * ·) a b)
    [(.layer fun _ => .ok [2, 3], [1, 0]), (.layer fun _ => .ok [5, 7], [1, 0])] [] = .ok [10, 21] ∧
    crownRec .ibp (0 : ℤ) ⟨fun _ _ => 0, id, id, id⟩ (fun a b => List.zipWith (· * ·) a b)
    [(.layer fun _ => .ok [2, 3], [1, 0]), (.model fun _ => .ok [5, 7], [1, 0])] [] = .error .valueError := by decide +kernel

end Decomon
