import Verif.Lemmas.Graph

/-!
Properties C47 (graph traversal), C52 (methods) and C81 (several outputs).
-/

namespace Decomon

section Depth
variable (parents : ℕ → List ℕ)

theorem Walk.trans {parents : ℕ → List ℕ} {a b c m n : ℕ} (h1 : Walk parents a b m) (h2 : Walk parents b c n) :
    Walk parents a c (m + n) := by
  induction h2 with
  | nil => exact h1
  | snoc _ hp ih => exact .snoc ih hp

/-- C47: on every acyclic graph the traversal raises nothing; the depth of a node is the top depth minus the longest walk from an input,
and is strictly below the depth of each of its parents. -/
theorem C47_depth (top : ℤ) (fuel : ℕ) (order : List ℕ) (ht : Topological parents order) :
    ∃ d, depthDict parents top (fuel + 1) order = .ok d ∧
      (∀ v ∈ order, ∃ n : ℕ, d v = some (top - n) ∧ LongestFromInput parents v n) ∧
      (∀ v ∈ order, ∀ p ∈ parents v, ∃ k kp, d v = some k ∧ d p = some kp ∧ k < kp) := by
  obtain ⟨d, e, -, hg⟩ := depthDict_ok parents top fuel order ht
  exact ⟨d, e, depth_longest parents top d ht hg, fun v hv p hp => depth_lt_parent parents top d (hg v hv) hp⟩

/-- C47: the nodes are visited each once, after all their parents. -/
theorem C47_visit (top : ℤ) (fuel : ℕ) (order : List ℕ) (ht : Topological parents order) :
    ∃ d, depthDict parents top (fuel + 1) order = .ok d ∧ Topological parents (visitOrder d order) ∧
      ∀ v, v ∈ visitOrder d order ↔ v ∈ order := by
  obtain ⟨d, e, hd, hg⟩ := depthDict_ok parents top fuel order ht
  exact ⟨d, e, visitOrder_topological parents top d ht hd hg, fun v => by
    rw [mem_visitOrder, hd]; tauto⟩

theorem eq_singleton_of {l : List ℕ} {o : ℕ} (hn : l.Nodup) (h : ∀ x, x ∈ l ↔ x = o) : l = [o] := by
  cases l with
  | nil => exact absurd ((h o).mpr rfl) (by simp)
  | cons a t =>
    have ha : a = o := (h a).mp (by simp)
    subst ha
    cases t with
    | nil => rfl
    | cons b u =>
      have hb : b = a := (h b).mp (by simp)
      subst hb
      simp at hn

theorem nodesAt_zero (M : ℕ) (d : ℕ → Option ℤ) (order : List ℕ) (hn : order.Nodup) (o : ℕ) (ho : o ∈ order)
    (hlong : LongestFromInput parents o M) (hreach : ∀ v ∈ order, ∃ n, Walk parents v o n)
    (hd : ∀ v ∈ order, ∃ n : ℕ, d v = some ((M : ℤ) - n) ∧ LongestFromInput parents v n) : nodesAt d order 0 = [o] := by
  refine eq_singleton_of (hn.filter _) fun v => ?_
  simp only [nodesAt, List.mem_filter, decide_eq_true_eq]
  constructor
  · rintro ⟨hv, hv0⟩
    obtain ⟨n, e, ⟨⟨a, ha, hw⟩, -⟩⟩ := hd v hv
    obtain ⟨k, hk⟩ := hreach v hv
    rw [hv0] at e
    have e' := Option.some.inj e
    have := hlong.2 a _ ha (hw.trans hk)
    have hk0 : k = 0 := by omega
    subst hk0
    cases hk
    rfl
  · rintro rfl
    refine ⟨ho, ?_⟩
    obtain ⟨n, e, ⟨⟨a, ha, hw⟩, hmax⟩⟩ := hd v ho
    obtain ⟨a', ha', hw'⟩ := hlong.1
    have h1 := hlong.2 a n ha hw
    have h2 := hmax a' M ha' hw'
    rw [e]; congr 1; omega

variable {τ : Type*} (conv : ℕ → List τ → List τ)

/-- C47: for a graph with one output `o` that every node leads to, the conversion raises nothing and returns the value of the graph at `o`:
the value is the input at input nodes, and elsewhere what the node does to the concatenated values of its parents.  `M` is the depth Keras
gives to the deepest input, the length of the longest walk to `o`. -/
theorem C47_convert_partial (M fuel : ℕ) (order : List ℕ) (ht : Topological parents order) (nameOf : ℕ → String) (o : ℕ) (ho : o ∈ order)
    (hlong : LongestFromInput parents o M) (hreach : ∀ v ∈ order, ∃ n, Walk parents v o n) (inp : List τ) :
    ∃ val, IsEval parents conv inp order val ∧ convertFunctional parents M (fuel + 1) order nameOf [o] conv inp = .ok (val o) := by
  obtain ⟨d, e, hd, hg⟩ := depthDict_ok parents M fuel order ht
  have hdl := depth_longest parents M d ht hg
  have hvt := visitOrder_topological parents M d ht hd hg
  have hmem : ∀ v, v ∈ visitOrder d order ↔ v ∈ order := fun v => by rw [mem_visitOrder, hd]; tauto
  have hin : ∀ l1 v l2, visitOrder d order = l1 ++ v :: l2 → parents v = [] → ∀ w ∈ l1, parents w = [] := by
    intro l1 v l2 ev hpv w hw
    by_contra hne
    have hwo : w ∈ order := (hmem w).mp (by rw [ev]; simp [hw])
    have hvo : v ∈ order := (hmem v).mp (by rw [ev]; simp)
    have hs := visitOrder_sorted d order
    rw [ev, List.pairwise_append] at hs
    have hdv : d v = some (M : ℤ) := (hg v hvo).1 hpv
    obtain ⟨k, hk, hmin⟩ := (hg w hwo).2 hne
    have h1 := hs.2.2 w hw v (by simp) k M hk hdv
    obtain ⟨p, hp, hpk⟩ := hmin.2
    obtain ⟨n, en, -⟩ := hdl p (topological_parent_mem parents ht hwo hp)
    rw [hpk] at en
    have := Option.some.inj en
    omega
  obtain ⟨st, e2, h1, h2⟩ := convertLoop_ok parents conv inp (visitOrder d order) hvt hin (visitOrder d order) [] (inp, fun _ => none)
    rfl (by simp) (fun _ => rfl) (by intro v hv; simp at hv)
  refine ⟨fun v => (st.2 v).getD [], fun v hv => h2 v ((hmem v).mpr hv), ?_⟩
  have hz := nodesAt_zero parents M d order ht.1 o ho hlong hreach hdl
  have ho' : st.2 o ≠ none := (h1 o).mpr ((hmem o).mpr ho)
  simp only [convertFunctional, e, Except.bind, e2, collectOutputs, hz, List.map_cons, List.map_nil, List.flatMap_cons, List.flatMap_nil,
    List.append_nil, List.filter_cons, decide_true, if_true, List.filter_nil]
  rw [gatherParents_ok st.2 [o] (by simpa using ho')]
  simp

/-- C47: the value of the graph is unique. -/
theorem C47_value_unique (inp : List τ) {order : List ℕ} (ht : Topological parents order) (v1 v2 : ℕ → List τ)
    (h1 : IsEval parents conv inp order v1) (h2 : IsEval parents conv inp order v2) (v : ℕ) (hv : v ∈ order) : v1 v = v2 v :=
  isEval_unique parents conv inp ht v1 v2 h1 h2 v hv

end Depth

/-- The graph `0 → 1 → 2`, with the shortcut `0 → 2`. -/
def shortcutGraph : ℕ → List ℕ := fun v => if v = 1 then [0] else if v = 2 then [1, 0] else []

/-- Non-vacuity of C47: three nodes, the last adds its two inputs; the layer 1 adds one. -/
example : convertFunctional shortcutGraph 2 1 [0, 1, 2] (fun v => if v = 0 then "input" else if v = 1 then "a" else "b") [2]
    (fun v l => if v = 1 then l.map (· + 1) else [l.sum]) [(10 : ℤ)] = .ok [21] := by decide +kernel

/-- Non-vacuity of C47: the hypotheses hold for this graph. -/
example : Topological shortcutGraph [0, 1, 2] ∧ LongestFromInput shortcutGraph 2 2 ∧
    ∀ v ∈ [0, 1, 2], ∃ n, Walk shortcutGraph v 2 n := by
  have hw : ∀ {a v n}, Walk shortcutGraph a v n → v ≤ 2 → n ≤ v := by
    intro a v n h
    induction h with
    | nil => exact fun _ => Nat.zero_le _
    | @snoc p v n _ hp ih =>
      intro hv
      have : p < v := by
        have : v = 0 ∨ v = 1 ∨ v = 2 := by omega
        rcases this with rfl | rfl | rfl <;> simp [shortcutGraph] at hp <;> omega
      have := ih (by omega)
      omega
  refine ⟨⟨by decide, fun l1 v l2 e p hp => ?_⟩, ⟨⟨0, by simp [shortcutGraph], ?_⟩, fun a k _ h => hw h le_rfl⟩, ?_⟩
  · match l1, e with
    | [], e => simp at e; rw [← e.1] at hp; simp [shortcutGraph] at hp
    | [a], e => simp at e; rw [← e.2.1] at hp; simp [shortcutGraph] at hp; simp [hp, e.1]
    | [a, b], e => simp at e; rw [← e.2.2.1] at hp; simp [shortcutGraph] at hp; simp [e.1, ← e.2.1]; omega
    | a :: b :: c :: t, e => simp at e
  · exact .snoc (p := 1) (.snoc (p := 0) (.nil 0) (by simp [shortcutGraph])) (by simp [shortcutGraph])
  · intro v hv
    have : v = 0 ∨ v = 1 ∨ v = 2 := by simpa using hv
    rcases this with rfl | rfl | rfl
    · exact ⟨1, .snoc (p := 0) (.nil 0) (by simp [shortcutGraph])⟩
    · exact ⟨1, .snoc (p := 1) (.nil 1) (by simp [shortcutGraph])⟩
    · exact ⟨0, .nil 2⟩

/-- C47: an output that is not at depth 0 is dropped: graph `0 → 1 → 2` with outputs 1 and 2: only the bounds of 2 are returned. -/
theorem C47_shallow_output_refuted :
    let parents := fun v : ℕ => if v = 1 then [0] else if v = 2 then [1] else []
    let nameOf := fun v : ℕ => if v = 0 then "input" else if v = 1 then "a" else "b"
    convertFunctional parents 2 1 [0, 1, 2] nameOf [1, 2] (fun _ l => l.map (· + 1)) [(10 : ℤ)] = .ok [12] := by decide +kernel

/-- C47: two outputs made by one shared layer are returned twice each: graph with two branches `0 → 1`, `0 → 2`, one layer "d" applied to
both (nodes 3 and 4). -/
theorem C47_shared_output_refuted :
    let parents := fun v : ℕ => if v = 1 then [0] else if v = 2 then [0] else if v = 3 then [1] else if v = 4 then [2] else []
    let nameOf := fun v : ℕ => if v = 0 then "input" else if v = 1 then "a" else if v = 2 then "b" else "d"
    convertFunctional parents 2 1 [0, 1, 2, 3, 4] nameOf [3, 4] (fun v l => l.map (· + v)) [10] = .ok [14, 16, 14, 16] := by
  decide +kernel

/-- C47: the depths need the order of Keras: started on a node with two parents that have no depth, `fill_dico` raises `KeyError`. -/
theorem C47_unordered_refuted :
    (depthDict (fun v : ℕ => if v = 2 then [0, 1] else []) 1 5 [2, 0, 1]).map (fun _ => ()) = .error .keyError := by decide +kernel

/-! ### C81: several outputs -/

theorem take_append_nb {τ : Type*} (m : Mode) (dc : Bool) (l1 l2 : List τ) (h : l1.length = nbTensors m dc) :
    (l1 ++ l2).take (nbTensors m dc) = l1 := by rw [← h]; simp

/-- C81: whatever the model, the last conversion keeps the tensors of the first output only: bounds of the other outputs are lost. -/
theorem C81_outputs_refuted {τ : Type*} (mFrom mTo : Mode) (e : τ) (cv : Nine τ → Nine τ) (first rest : List τ)
    (h : first.length = nbTensors mFrom false) : convertFinal mFrom mTo e cv (first ++ rest) = convertFinal mFrom mTo e cv first := by
  have h1 := take_append_nb mFrom false first rest h
  have h2 : first.take (nbTensors mFrom false) = first := by rw [← h]; simp
  simp only [convertFinal, fullInputsList, h1, h2]

/-- C81: the number of tensors returned is that of one output. -/
theorem C81_outputs_length_partial {τ : Type*} (mFrom mTo : Mode) (e : τ) (cv : Nine τ → Nine τ) (outputs r : List τ)
    (h : convertFinal mFrom mTo e cv outputs = .ok r) : r.length = nbTensors mTo false := by
  unfold convertFinal at h
  cases hf : fullInputsList mFrom false e outputs with
  | error x => simp [hf, Except.map] at h
  | ok t =>
    simp only [hf, Except.map] at h
    cases h
    cases mTo <;> rfl

/-- Non-vacuity of C81: two outputs in ibp mode. -/
example : convertFinal .ibp .ibp 0 id [1, 2, 3, 4] = .ok [1, 2] := by decide +kernel

/-! ### C52: methods -/

/-- C52: the seven names give the documented mode and direction. -/
theorem C52_table (m : Method) :
    methodOfString m.value = .ok m ∧
    ibpAffineOfMethod m = (match m with
      | .crown | .forwardIbp | .crownForwardIbp => (true, false)
      | .forwardAffine | .crownForwardAffine => (false, true)
      | .forwardHybrid | .crownForwardHybrid => (true, true)) ∧
    (isBackward m = true ↔ m = .crown ∨ m = .crownForwardIbp ∨ m = .crownForwardAffine ∨ m = .crownForwardHybrid) := by
  cases m <;> refine ⟨by decide +kernel, by decide +kernel, by decide +kernel⟩

theorem methodOfString_ok (s : String) (m : Method) (h : methodOfString s = .ok m) : m.value = s := by
  unfold methodOfString at h
  split at h
  · rename_i m' h'
    have := List.find?_some h'
    simp only [decide_eq_true_eq] at this
    cases h; exact this
  · simp at h

/-- C52: `clone` accepts a string exactly when it is one of the seven names, and then runs a forward pass for every method but crown, a
backward pass for the crown methods, in the mode of the method; the outputs have that mode unless asked otherwise.
Missing with respect to the full claim: names in other cases, which `convert` accepts, see below. -/
theorem C52_clone_partial (s : String) (fi fa : Option Bool) :
    (∀ m : Method, s = m.value → clonePlan s fi fa = .ok ⟨decide (m ≠ .crown), isBackward m,
      getMode (ibpAffineOfMethod m).1 (ibpAffineOfMethod m).2,
      getMode (fi.getD (ibpAffineOfMethod m).1) (fa.getD (ibpAffineOfMethod m).2)⟩) ∧
    ((∀ m : Method, s ≠ m.value) → clonePlan s fi fa = .error .valueError) := by
  constructor
  · rintro m rfl
    have h1 : methodOfString m.value = .ok m := (C52_table m).1
    have h2 : lowerString m.value = m.value := by cases m <;> decide +kernel
    simp only [clonePlan, h1, Except.bind, convertPlan, h2, Except.map]
  · intro h
    have : methodOfString s = .error .valueError := by
      cases hm : methodOfString s with
      | ok m => exact absurd (methodOfString_ok s m hm).symm (h m)
      | error x =>
        unfold methodOfString at hm
        split at hm
        · simp at hm
        · cases hm; rfl
    simp only [clonePlan, this, Except.bind]

/-- C52: `convert` lower-cases the name, `clone` refuses what `convert` accepts. -/
theorem C52_case_refuted :
    clonePlan "CROWN" none none = .error .valueError ∧
      convertPlan "CROWN" true false true false = .ok ⟨false, true, .ibp, .ibp⟩ := by
  constructor <;> decide +kernel

/-- C52: with its defaults `convert` works in affine mode whatever the method, even for the methods named ibp. -/
theorem C52_convert_default_refuted : convertPlan "forward-ibp" false false false false = .ok ⟨true, false, .affine, .affine⟩ := by
  decide +kernel

end Decomon
