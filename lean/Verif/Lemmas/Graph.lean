import Verif.Model.Graph

/-!
Specification of graphs and lemmas about the traversal.
-/

namespace Decomon

/-- Every node comes once, after all its parents (as in `_nodes_by_depth` read by decreasing depth). -/
def Topological (parents : ℕ → List ℕ) (order : List ℕ) : Prop :=
  order.Nodup ∧ ∀ l1 v l2, order = l1 ++ v :: l2 → ∀ p ∈ parents v, p ∈ l1

/-- A walk of a given length along the edges of the graph. -/
inductive Walk (parents : ℕ → List ℕ) : ℕ → ℕ → ℕ → Prop
  | nil (v : ℕ) : Walk parents v v 0
  | snoc {a p v n : ℕ} : Walk parents a p n → p ∈ parents v → Walk parents a v (n + 1)

/-- `n` is the length of the longest walk from an input to `v`. -/
def LongestFromInput (parents : ℕ → List ℕ) (v n : ℕ) : Prop :=
  (∃ a, parents a = [] ∧ Walk parents a v n) ∧ ∀ a k, parents a = [] → Walk parents a v k → k ≤ n

/-- `val` is the value computed by the graph at each node of `order`, from the input `inp`. -/
def IsEval {τ : Type*} (parents : ℕ → List ℕ) (conv : ℕ → List τ → List τ) (inp : List τ) (order : List ℕ) (val : ℕ → List τ) : Prop :=
  ∀ v ∈ order, (parents v = [] → val v = inp) ∧ (parents v ≠ [] → val v = conv v ((parents v).flatMap val))

section Depth
variable (parents : ℕ → List ℕ)

/-- `k` is the least depth of `ps`, minus one. -/
def IsMinDepth (d : ℕ → Option ℤ) (ps : List ℕ) (k : ℤ) : Prop :=
  (∀ p ∈ ps, ∃ kp, d p = some kp ∧ k ≤ kp - 1) ∧ ∃ p ∈ ps, d p = some (k + 1)

theorem parentDepths_ok (d : ℕ → Option ℤ) : ∀ ps : List ℕ, (∀ p ∈ ps, ∃ k, d p = some k) →
    parentDepths d ps = .ok (ps.map fun p => (d p).getD 0 - 1)
  | [], _ => rfl
  | p :: t, h => by
    obtain ⟨k, hk⟩ := h p (by simp)
    simp [parentDepths, hk, parentDepths_ok d t fun q hq => h q (by simp [hq]), Except.map]

theorem foldl_minInt_spec : ∀ (t : List ℤ) (a : ℤ), (∀ b ∈ a :: t, t.foldl min a ≤ b) ∧ t.foldl min a ∈ a :: t
  | [], a => by simp
  | c :: t, a => by
    obtain ⟨h1, h2⟩ := foldl_minInt_spec t (min a c)
    simp only [List.foldl_cons]
    refine ⟨fun b hb => ?_, ?_⟩
    · have h3 := h1 (min a c) (by simp)
      rcases List.mem_cons.mp hb with rfl | hb
      · exact h3.trans (min_le_left _ _)
      · rcases List.mem_cons.mp hb with rfl | hb
        · exact h3.trans (min_le_right _ _)
        · exact h1 b (by simp [hb])
    · rcases List.mem_cons.mp h2 with h | h
      · rw [h]
        rcases min_choice a c with h' | h' <;> rw [h'] <;> simp
      · simp [h]

theorem setDepth_ok (v : ℕ) (d : ℕ → Option ℤ) (k : ℤ) (h : IsMinDepth d (parents v) k) :
    setDepth parents v d = .ok (Function.update d v (some (joinDepth k (d v)))) := by
  have h1 : ∀ p ∈ parents v, ∃ k, d p = some k := fun p hp => (h.1 p hp).imp fun _ hk => hk.1
  obtain ⟨p, hp, hk⟩ := h.2
  have : pyMin ((parents v).map fun p => (d p).getD 0 - 1) = .ok k := by
    cases hps : parents v with
    | nil => simp [hps] at hp
    | cons a t =>
      simp only [List.map_cons, pyMin]
      obtain ⟨hle, hmem⟩ := foldl_minInt_spec (t.map fun p => (d p).getD 0 - 1) ((d a).getD 0 - 1)
      congr 1
      apply le_antisymm
      · refine (hle ((d p).getD 0 - 1) ?_).trans (by simp [hk])
        rw [hps] at hp
        have := List.mem_map_of_mem (f := fun p => (d p).getD 0 - 1) hp
        simpa using this
      · have hmem' : (t.map fun p => (d p).getD 0 - 1).foldl min ((d a).getD 0 - 1) ∈ (parents v).map fun p => (d p).getD 0 - 1 := by
          rw [hps]; simpa using hmem
        obtain ⟨q, hq, e⟩ := List.mem_map.mp hmem'
        obtain ⟨kq, e1, e2⟩ := h.1 q hq
        rw [← e, e1]
        exact e2
  simp only [setDepth, parentDepths_ok d _ h1, Except.bind, this, Except.map]

theorem exists_minDepth (d : ℕ → Option ℤ) (ps : List ℕ) (hne : ps ≠ []) (h : ∀ p ∈ ps, ∃ k, d p = some k) : ∃ k, IsMinDepth d ps k := by
  cases ps with
  | nil => exact absurd rfl hne
  | cons a t =>
    obtain ⟨hle, hmem⟩ := foldl_minInt_spec (t.map fun p => (d p).getD 0 - 1) ((d a).getD 0 - 1)
    refine ⟨(t.map fun p => (d p).getD 0 - 1).foldl min ((d a).getD 0 - 1), fun p hp => ?_, ?_⟩
    · obtain ⟨k, hk⟩ := h p hp
      refine ⟨k, hk, ?_⟩
      have := hle ((d p).getD 0 - 1) (by
        have := List.mem_map_of_mem (f := fun p => (d p).getD 0 - 1) hp
        simpa using this)
      simpa [hk] using this
    · have hmem' : (t.map fun p => (d p).getD 0 - 1).foldl min ((d a).getD 0 - 1) ∈ (a :: t).map fun p => (d p).getD 0 - 1 := by
        simpa using hmem
      obtain ⟨q, hq, e⟩ := List.mem_map.mp hmem'
      obtain ⟨k, hk⟩ := h q hq
      refine ⟨q, hq, ?_⟩
      rw [← e, hk]
      simp

theorem isMinDepth_update (d : ℕ → Option ℤ) (ps : List ℕ) (v : ℕ) (hv : v ∉ ps) (x : Option ℤ) (k : ℤ) (h : IsMinDepth d ps k) :
    IsMinDepth (Function.update d v x) ps k := by
  refine ⟨fun p hp => ?_, ?_⟩
  · have : p ≠ v := by rintro rfl; exact hv hp
    rw [Function.update_of_ne this]; exact h.1 p hp
  · obtain ⟨p, hp, e⟩ := h.2
    have : p ≠ v := by rintro rfl; exact hv hp
    exact ⟨p, hp, by rw [Function.update_of_ne this]; exact e⟩

theorem fillLoop_again (fill : ℕ → (ℕ → Option ℤ) → Except PyErr (ℕ → Option ℤ)) (v : ℕ) (d : ℕ → Option ℤ) (k : ℤ) (hv : v ∉ parents v)
    (h : IsMinDepth d (parents v) k) : ∀ t : List ℕ, t ⊆ parents v →
    fillLoop parents fill v t (Function.update d v (some k)) = .ok (Function.update d v (some k))
  | [], _ => rfl
  | p :: t, ht => by
    have h' := isMinDepth_update d (parents v) v hv (some k) k h
    have hp : p ∈ parents v := ht (by simp)
    obtain ⟨kp, hkp, -⟩ := h'.1 p hp
    have hne : ¬ (Function.update d v (some k)) p = none := by rw [hkp]; simp
    simp only [fillLoop, hne, if_false, Except.bind, setDepth_ok parents v _ k h', Function.update_self, joinDepth, max_self, Function.update_idem]
    exact fillLoop_again fill v d k hv h t fun q hq => ht (by simp [hq])

theorem fillLoop_first (fill : ℕ → (ℕ → Option ℤ) → Except PyErr (ℕ → Option ℤ)) (v : ℕ) (d : ℕ → Option ℤ) (k : ℤ) (hv : v ∉ parents v)
    (hd : d v = none) (h : IsMinDepth d (parents v) k) (p : ℕ) (t : List ℕ) (ht : p :: t ⊆ parents v) :
    fillLoop parents fill v (p :: t) d = .ok (Function.update d v (some k)) := by
  obtain ⟨kp, hkp, -⟩ := h.1 p (ht (by simp))
  have hne : ¬ d p = none := by rw [hkp]; simp
  simp only [fillLoop, hne, if_false, Except.bind, setDepth_ok parents v _ k h, hd, joinDepth]
  exact fillLoop_again parents fill v d k hv h t fun q hq => ht (by simp [hq])

/-- What is known of the depth of a node. -/
def GoodDepth (top : ℤ) (d : ℕ → Option ℤ) (v : ℕ) : Prop :=
  (parents v = [] → d v = some top) ∧ (parents v ≠ [] → ∃ k, d v = some k ∧ IsMinDepth d (parents v) k)

theorem depthLoop_ok (top : ℤ) (fuel : ℕ) (order : List ℕ) (ht : Topological parents order) :
    ∀ (l2 l1 : List ℕ) (d : ℕ → Option ℤ), order = l1 ++ l2 → (∀ v, d v ≠ none ↔ v ∈ l1) → (∀ v ∈ l1, GoodDepth parents top d v) →
    ∃ d', depthLoop parents top (fuel + 1) l2 d = .ok d' ∧ (∀ v, d' v ≠ none ↔ v ∈ order) ∧ ∀ v ∈ order, GoodDepth parents top d' v
  | [], l1, d, ho, h1, h2 => by
    have : order = l1 := by simpa using ho
    exact ⟨d, rfl, by rw [this]; exact h1, by rw [this]; exact h2⟩
  | v :: t, l1, d, ho, h1, h2 => by
    have hpar := ht.2 l1 v t ho
    have hv1 : v ∉ l1 := by
      have := ht.1
      rw [ho, List.nodup_append] at this
      intro hmem
      exact this.2.2 v hmem v (by simp) rfl
    have hvp : v ∉ parents v := fun h => hv1 (hpar v h)
    have hdv : d v = none := by
      by_contra h; exact hv1 ((h1 v).mp h)
    -- the new dictionary
    have hstep : ∃ x, fillDico parents top (fuel + 1) v d = .ok (Function.update d v (some x)) ∧
        GoodDepth parents top (Function.update d v (some x)) v := by
      cases hps : parents v with
      | nil =>
        refine ⟨top, by simp [fillDico, hps], fun _ => Function.update_self .., fun h => absurd hps h⟩
      | cons p ps =>
        obtain ⟨k, hk⟩ := exists_minDepth d (parents v) (by simp [hps]) fun q hq =>
          Option.ne_none_iff_exists'.mp ((h1 q).mpr (hpar q hq))
        refine ⟨k, ?_, fun h => absurd h (by simp [hps]), fun _ => ⟨k, Function.update_self .., isMinDepth_update d _ v hvp _ k hk⟩⟩
        simp only [fillDico, hps]
        exact fillLoop_first parents _ v d k hvp hdv hk p ps (by rw [hps]; exact fun _ h => h)
    obtain ⟨x, hx, hgood⟩ := hstep
    have key := depthLoop_ok top fuel order ht t (l1 ++ [v]) (Function.update d v (some x)) (by simp [ho])
      (fun w => by
        by_cases hw : w = v
        · subst hw; simp
        · rw [Function.update_of_ne hw, h1 w]; simp [hw])
      (fun w hw => by
        rcases List.mem_append.mp hw with hw' | hw'
        · have hwv : w ≠ v := fun e => hv1 (e ▸ hw')
          replace hw := hw'
          obtain ⟨g1, g2⟩ := h2 w hw
          -- the parents of w come before w, so they are not v
          have hvw : v ∉ parents w := by
            intro hmem
            obtain ⟨a, b, e⟩ := List.append_of_mem hw
            have := ht.2 a w (b ++ v :: t) (by rw [ho, e]; simp) v hmem
            exact hv1 (by rw [e]; simp [this])
          refine ⟨fun h => by rw [Function.update_of_ne hwv]; exact g1 h, fun h => ?_⟩
          obtain ⟨k, e, hk⟩ := g2 h
          exact ⟨k, by rw [Function.update_of_ne hwv]; exact e, isMinDepth_update d _ v hvw _ k hk⟩
        · have : w = v := by simpa using hw'
          subst this; exact hgood)
    obtain ⟨d', e, r⟩ := key
    exact ⟨d', by simp only [depthLoop, hx, Except.bind]; exact e, r⟩

theorem depthDict_ok (top : ℤ) (fuel : ℕ) (order : List ℕ) (ht : Topological parents order) :
    ∃ d, depthDict parents top (fuel + 1) order = .ok d ∧ (∀ v, d v ≠ none ↔ v ∈ order) ∧ ∀ v ∈ order, GoodDepth parents top d v :=
  depthLoop_ok parents top fuel order ht order [] _ rfl (by simp) (by simp)

theorem topological_parent_mem {order : List ℕ} (ht : Topological parents order) {v p : ℕ} (hv : v ∈ order) (hp : p ∈ parents v) :
    p ∈ order := by
  obtain ⟨a, b, e⟩ := List.append_of_mem hv
  rw [e]
  simp [ht.2 a v b e p hp]

/-- Induction along a topological order. -/
theorem topological_induction {order : List ℕ} (ht : Topological parents order) (P : ℕ → Prop)
    (h : ∀ v ∈ order, (∀ p ∈ parents v, P p) → P v) : ∀ v ∈ order, P v := by
  have : ∀ l1 l2 : List ℕ, order = l1 ++ l2 → ∀ v ∈ l1, P v := by
    intro l1
    induction l1 using List.reverseRecOn with
    | nil => simp
    | append_singleton l v ih =>
      intro l2 e w hw
      have e' : order = l ++ v :: l2 := by simp [e]
      rcases List.mem_append.mp hw with hw | hw
      · exact ih (v :: l2) e' w hw
      · have : w = v := by simpa using hw
        subst this
        exact h w (by rw [e']; simp) fun p hp => ih (w :: l2) e' p (ht.2 l w l2 e' p hp)
  exact this order [] (by simp)

theorem depth_longest (top : ℤ) (d : ℕ → Option ℤ) {order : List ℕ} (ht : Topological parents order)
    (hg : ∀ v ∈ order, GoodDepth parents top d v) : ∀ v ∈ order, ∃ n : ℕ, d v = some (top - n) ∧ LongestFromInput parents v n := by
  refine topological_induction parents ht _ fun v hv ih => ?_
  by_cases hps : parents v = []
  · refine ⟨0, by simpa using (hg v hv).1 hps, ⟨v, hps, .nil v⟩, ?_⟩
    intro a k _ hw
    cases hw with
    | nil => exact le_rfl
    | snoc _ hp => simp [hps] at hp
  · obtain ⟨k, hk, hmin⟩ := (hg v hv).2 hps
    obtain ⟨p, hp, hpk⟩ := hmin.2
    obtain ⟨n, hn, ⟨⟨a, ha, hw⟩, hmax⟩⟩ := ih p hp
    have hkn : k + 1 = top - n := by rw [hpk] at hn; exact Option.some.inj hn
    refine ⟨n + 1, by rw [hk]; congr 1; push_cast; linarith, ⟨a, ha, .snoc hw hp⟩, ?_⟩
    intro a' k' ha' hw'
    cases hw' with
    | nil => exact absurd ha' hps
    | snoc hw'' hq =>
      rename_i q m
      obtain ⟨n', hn', ⟨-, hmax'⟩⟩ := ih q hq
      have h1 := hmax' a' _ ha' hw''
      obtain ⟨kq, e1, e2⟩ := hmin.1 q hq
      rw [e1] at hn'
      have := Option.some.inj hn'
      omega

theorem depth_lt_parent (top : ℤ) (d : ℕ → Option ℤ) {v p : ℕ} (hg : GoodDepth parents top d v) (hp : p ∈ parents v) :
    ∃ k kp, d v = some k ∧ d p = some kp ∧ k < kp := by
  obtain ⟨k, hk, hmin⟩ := hg.2 (List.ne_nil_of_mem hp)
  obtain ⟨kp, e1, e2⟩ := hmin.1 p hp
  exact ⟨k, kp, hk, e1, by omega⟩

/-! ### The visit -/

theorem mem_visitOrder (d : ℕ → Option ℤ) (order : List ℕ) (v : ℕ) : v ∈ visitOrder d order ↔ v ∈ order ∧ d v ≠ none := by
  simp only [visitOrder, List.mem_flatMap, List.mem_insertionSort, List.mem_dedup, List.mem_filterMap, nodesAt, List.mem_filter,
    decide_eq_true_eq]
  constructor
  · rintro ⟨k, -, hv, e⟩
    exact ⟨hv, by simp [e]⟩
  · rintro ⟨hv, hn⟩
    obtain ⟨k, hk⟩ := Option.ne_none_iff_exists'.mp hn
    exact ⟨k, ⟨v, hv, hk⟩, hv, hk⟩

theorem keys_sorted (l : List ℤ) : (l.insertionSort (· ≥ ·)).Pairwise fun a b => b ≤ a :=
  List.pairwise_insertionSort _ l

theorem visitOrder_sorted (d : ℕ → Option ℤ) (order : List ℕ) :
    (visitOrder d order).Pairwise fun a b => ∀ ka kb, d a = some ka → d b = some kb → kb ≤ ka := by
  unfold visitOrder
  rw [List.pairwise_flatMap]
  constructor
  · intro k _
    refine List.pairwise_of_forall_mem_list ?_
    intro a ha b hb ka kb ea eb
    simp only [nodesAt, List.mem_filter, decide_eq_true_eq] at ha hb
    rw [ha.2] at ea; rw [hb.2] at eb
    have := Option.some.inj ea; have := Option.some.inj eb; omega
  · refine (keys_sorted _).imp fun {k1 k2} h a ha b hb ka kb ea eb => ?_
    simp only [nodesAt, List.mem_filter, decide_eq_true_eq] at ha hb
    rw [ha.2] at ea; rw [hb.2] at eb
    have := Option.some.inj ea; have := Option.some.inj eb; omega

theorem visitOrder_nodup (d : ℕ → Option ℤ) (order : List ℕ) (h : order.Nodup) : (visitOrder d order).Nodup := by
  unfold visitOrder
  unfold List.Nodup
  rw [List.pairwise_flatMap]
  constructor
  · intro k _
    exact h.filter _
  · have hk : ((order.filterMap d).dedup.insertionSort (· ≥ ·)).Nodup :=
      (List.perm_insertionSort _ _).nodup_iff.mpr (List.nodup_dedup _)
    refine hk.imp fun {k1 k2} hne a ha b hb e => ?_
    simp only [nodesAt, List.mem_filter, decide_eq_true_eq] at ha hb
    subst e
    rw [ha.2] at hb
    exact hne (Option.some.inj hb.2)

theorem visitOrder_topological (top : ℤ) (d : ℕ → Option ℤ) {order : List ℕ} (ht : Topological parents order)
    (hd : ∀ v, d v ≠ none ↔ v ∈ order) (hg : ∀ v ∈ order, GoodDepth parents top d v) : Topological parents (visitOrder d order) := by
  refine ⟨visitOrder_nodup d order ht.1, fun l1 v l2 e p hp => ?_⟩
  have hv : v ∈ order := ((mem_visitOrder d order v).mp (by rw [e]; simp)).1
  have hpo := topological_parent_mem parents ht hv hp
  have hpv : p ∈ visitOrder d order := (mem_visitOrder d order p).mpr ⟨hpo, (hd p).mpr hpo⟩
  obtain ⟨k, kp, e1, e2, hlt⟩ := depth_lt_parent parents top d (hg v hv) hp
  rw [e] at hpv
  rcases List.mem_append.mp hpv with h | h
  · exact h
  · exfalso
    rcases List.mem_cons.mp h with rfl | h
    · rw [e1] at e2; have := Option.some.inj e2; omega
    · have hs := visitOrder_sorted d order
      rw [e, List.pairwise_append] at hs
      have := (List.pairwise_cons.mp hs.2.1).1 p h k kp e1 e2
      omega

end Depth

section Convert
variable {τ : Type*} (parents : ℕ → List ℕ) (conv : ℕ → List τ → List τ)

theorem gatherParents_ok (om : ℕ → Option (List τ)) : ∀ ps : List ℕ, (∀ p ∈ ps, om p ≠ none) →
    gatherParents om ps = .ok (ps.flatMap fun p => (om p).getD [])
  | [], _ => rfl
  | p :: t, h => by
    obtain ⟨o, ho⟩ := Option.ne_none_iff_exists'.mp (h p (by simp))
    simp [gatherParents, ho, gatherParents_ok om t fun q hq => h q (by simp [hq]), Except.map]

theorem flatMap_congr_mem {β γ : Type*} {l : List β} {f g : β → List γ} (h : ∀ a ∈ l, f a = g a) : l.flatMap f = l.flatMap g := by
  induction l with
  | nil => rfl
  | cons a t ih => simp only [List.flatMap_cons, h a (by simp), ih fun b hb => h b (by simp [hb])]

theorem convertLoop_ok (inp : List τ) (visit : List ℕ) (ht : Topological parents visit)
    (hin : ∀ l1 v l2, visit = l1 ++ v :: l2 → parents v = [] → ∀ w ∈ l1, parents w = []) :
    ∀ (l2 l1 : List ℕ) (st : List τ × (ℕ → Option (List τ))), visit = l1 ++ l2 → (∀ v, st.2 v ≠ none ↔ v ∈ l1) →
      ((∀ w ∈ l1, parents w = []) → st.1 = inp) → IsEval parents conv inp l1 (fun v => (st.2 v).getD []) →
    ∃ st', convertLoop parents conv l2 st = .ok st' ∧ (∀ v, st'.2 v ≠ none ↔ v ∈ visit) ∧
      IsEval parents conv inp visit (fun v => (st'.2 v).getD [])
  | [], l1, st, ho, h1, _, h3 => by
    have : visit = l1 := by simpa using ho
    exact ⟨st, rfl, by rw [this]; exact h1, by rw [this]; exact h3⟩
  | v :: t, l1, st, ho, h1, h2, h3 => by
    have hpar := ht.2 l1 v t ho
    have hv1 : v ∉ l1 := by
      have := ht.1
      rw [ho, List.nodup_append] at this
      intro hmem
      exact this.2.2 v hmem v (by simp) rfl
    have hst : st.2 v = none := by
      by_contra h; exact hv1 ((h1 v).mp h)
    have hvl : ∀ w ∈ l1, v ∉ parents w := by
      intro w hw hmem
      obtain ⟨a, b, e⟩ := List.append_of_mem hw
      have := ht.2 a w (b ++ v :: t) (by rw [ho, e]; simp) v hmem
      exact hv1 (by rw [e]; simp [this])
    have hvv : v ∉ parents v := fun h => hv1 (hpar v h)
    -- what stays true of the old nodes
    have hold : ∀ x : List τ, (parents v = [] → x = inp) →
        (parents v ≠ [] → x = conv v ((parents v).flatMap fun p => (st.2 p).getD [])) →
        IsEval parents conv inp (l1 ++ [v]) fun w => ((Function.update st.2 v (some x)) w).getD [] := by
      intro x hx1 hx2 w hw
      have hcong : ∀ ps : List ℕ, v ∉ ps → (ps.flatMap fun p => ((Function.update st.2 v (some x)) p).getD []) =
          ps.flatMap fun p => (st.2 p).getD [] := fun ps hps => flatMap_congr_mem fun p hp => by
        rw [Function.update_of_ne (by rintro rfl; exact hps hp)]
      rcases List.mem_append.mp hw with hw' | hw'
      · have hwv : w ≠ v := fun e => hv1 (e ▸ hw')
        replace hw := hw'
        simp only [Function.update_of_ne hwv, hcong _ (hvl w hw)]
        exact h3 w hw
      · have : w = v := by simpa using hw'
        subst this
        simp only [Function.update_self, Option.getD_some, hcong _ hvv]
        exact ⟨hx1, hx2⟩
    have hdom : ∀ x : List τ, ∀ w, (Function.update st.2 v (some x)) w ≠ none ↔ w ∈ l1 ++ [v] := by
      intro x w
      by_cases hw : w = v
      · subst hw; simp
      · rw [Function.update_of_ne hw, h1 w]; simp [hw]
    cases hps : parents v with
    | nil =>
      have hfirst := hin l1 v t ho hps
      have hin1 : st.1 = inp := h2 hfirst
      obtain ⟨st', e, r⟩ := convertLoop_ok inp visit ht hin t (l1 ++ [v]) (st.1, Function.update st.2 v (some st.1)) (by simp [ho])
        (hdom _) (fun _ => hin1) (hold _ (fun _ => hin1) fun h => absurd hps h)
      refine ⟨st', ?_, r⟩
      simp only [convertLoop, convertNode, hst, hps, ne_eq, not_true_eq_false, if_false, Except.bind]
      exact e
    | cons p ps =>
      have hg := gatherParents_ok st.2 (p :: ps) fun q hq => (h1 q).mpr (hpar q (by rw [hps]; exact hq))
      obtain ⟨st', e, r⟩ := convertLoop_ok inp visit ht hin t (l1 ++ [v])
        (conv v ((p :: ps).flatMap fun q => (st.2 q).getD []),
          Function.update st.2 v (some (conv v ((p :: ps).flatMap fun q => (st.2 q).getD [])))) (by simp [ho])
        (hdom _) (fun h => absurd (h v (by simp)) (by simp [hps]))
        (hold _ (fun h => absurd h (by simp [hps])) fun _ => by rw [hps])
      refine ⟨st', ?_, r⟩
      simp only [convertLoop, convertNode, hst, hps, ne_eq, not_true_eq_false, if_false, hg, Except.map, Except.bind]
      exact e

theorem isEval_unique (inp : List τ) {order : List ℕ} (ht : Topological parents order) (v1 v2 : ℕ → List τ)
    (h1 : IsEval parents conv inp order v1) (h2 : IsEval parents conv inp order v2) : ∀ v ∈ order, v1 v = v2 v := by
  refine topological_induction parents ht _ fun v hv ih => ?_
  by_cases hps : parents v = []
  · rw [(h1 v hv).1 hps, (h2 v hv).1 hps]
  · rw [(h1 v hv).2 hps, (h2 v hv).2 hps, flatMap_congr_mem ih]

end Convert

end Decomon
