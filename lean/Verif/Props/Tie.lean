import Verif.Lemmas.TendsNet
import Verif.Props.Drift
import Verif.Props.Stable

/-!
Property C148: the bounds returned by the methods with affine bounds and by `crown` depend continuously on the box (or on the centre of the ball) and on
the weights, wherever no ReLU sits at a jump of its relaxation; with `slope="same-slope"` there is no such jump.
-/

namespace Decomon

open Filter Topology

section
variable {β ι κ : Type}

/-- A property that holds eventually along every sequence that tends to a point holds in a neighbourhood of the point. -/
theorem near_of_seq {δ : Type} (v0 : δ → ℝ) (ok good : (δ → ℝ) → Prop)
    (h : ∀ v : ℕ → δ → ℝ, (∀ n, ok (v n)) → (∀ c, Tendsto (fun n => v n c) atTop (𝓝 (v0 c))) → ∀ᶠ n in atTop, good (v n)) :
    ∃ ρ, 0 < ρ ∧ ∀ v, ok v → (∀ c, |v0 c - v c| ≤ ρ) → good v := by
  by_contra hc
  push Not at hc
  have hc' : ∀ n : ℕ, ∃ v, ok v ∧ (∀ c, |v0 c - v c| ≤ 1 / ((n : ℝ) + 1)) ∧ ¬ good v := fun n => hc _ Nat.one_div_pos_of_nat
  choose v h1 h2 h3 using hc'
  have := h v h1 fun c => by
    rw [tendsto_iff_dist_tendsto_zero]
    refine squeeze_zero (fun n => dist_nonneg) (fun n => ?_) tendsto_one_div_add_atTop_nhds_zero_nat
    rw [Real.dist_eq, abs_sub_comm]
    exact h2 n c
  obtain ⟨n, hn⟩ := this.exists
  exact h3 n hn

/-- The same for a memory and a box. -/
theorem near_of_seq_box (M0 : β → ℝ) (b0 : BoxOf ι ℝ) (ok : (β → ℝ) → Prop) (good : (β → ℝ) → BoxOf ι ℝ → Prop)
    (h : ∀ (M : ℕ → β → ℝ) (b : ℕ → BoxOf ι ℝ), (∀ n, ok (M n)) → (∀ c, Tendsto (fun n => M n c) atTop (𝓝 (M0 c))) →
      (∀ i, Tendsto (fun n => (b n).1 i) atTop (𝓝 (b0.1 i))) → (∀ i, Tendsto (fun n => (b n).2 i) atTop (𝓝 (b0.2 i))) →
      ∀ᶠ n in atTop, good (M n) (b n)) :
    ∃ ρ, 0 < ρ ∧ ∀ M b, ok M → (∀ c, |M0 c - M c| ≤ ρ) → b0.Within b (fun _ => ρ) → good M b := by
  obtain ⟨ρ, h0, h1⟩ := near_of_seq (Sum.elim M0 (Sum.elim b0.1 b0.2)) (fun v => ok fun c => v (.inl c))
    (fun v => good (fun c => v (.inl c)) (fun i => v (.inr (.inl i)), fun i => v (.inr (.inr i)))) fun v hv hl =>
      h _ (fun n => (fun i => v n (.inr (.inl i)), fun i => v n (.inr (.inr i)))) hv (fun c => hl (.inl c)) (fun i => hl (.inr (.inl i)))
        fun i => hl (.inr (.inr i))
  refine ⟨ρ, h0, fun M b hM h2 h3 => h1 (Sum.elim M (Sum.elim b.1 b.2)) hM fun c => ?_⟩
  rcases c with c | c | c
  exacts [h2 c, (h3 c).1, (h3 c).2]

/-- When the corners of the boxes tend to those of a box. -/
def BoxTends {T : Type} (F : Filter T) (x : T → BoxOf ι ℝ) (x0 : BoxOf ι ℝ) : Prop :=
  (∀ i, Tendsto (fun t => (x t).1 i) F (𝓝 (x0.1 i))) ∧ ∀ i, Tendsto (fun t => (x t).2 i) F (𝓝 (x0.2 i))

variable [Fintype ι]

theorem box_cont {T : Type} (F : Filter T) : (boxDomain : PertDomain (BoxOf ι ℝ) ι ℝ).Cont (BoxTends F) F := by
  refine ⟨fun x x0 w w0 b b0 hx hw hb => ?_, fun x x0 w w0 b b0 hx hw hb => ?_⟩ <;> simp only [boxDomain, getUpperBox, getLowerBox]
  · exact (tendsto_finsetSum _ fun i _ => (((hw i).max tendsto_const_nhds).mul (hx.2 i)).add (((hw i).min tendsto_const_nhds).mul (hx.1 i))).add hb
  · exact (tendsto_finsetSum _ fun i _ => (((hw i).max tendsto_const_nhds).mul (hx.1 i)).add (((hw i).min tendsto_const_nhds).mul (hx.2 i))).add hb

theorem input_box_tends [DecidableEq ι] {T : Type} (F : Filter T) (m : Mode) (b : T → BoxOf ι ℝ) (b0 : BoxOf ι ℝ) (h : BoxTends F b b0) :
    Tends (BoxTends F) F (fun t => inputTensorsBox m (b t).1 (b t).2) (inputTensorsBox m b0.1 b0.2) := by
  refine ⟨h, fun k => ?_, fun i k => ?_, fun k => ?_, fun k => ?_, fun i k => ?_, fun k => ?_⟩ <;> simp only [inputTensorsBox]
  · split_ifs
    exacts [h.2 k, tendsto_const_nhds]
  · exact tendsto_const_nhds
  · exact tendsto_const_nhds
  · split_ifs
    exacts [h.1 k, tendsto_const_nhds]
  · exact tendsto_const_nhds
  · exact tendsto_const_nhds

theorem range_tends {T : Type} {F : Filter T} (m : Mode) (b : T → BoxOf ι ℝ) (b0 : BoxOf ι ℝ) (hb : BoxTends F b b0)
    (f : T → Full (BoxOf ι ℝ) ι κ ℝ) (f0 : Full (BoxOf ι ℝ) ι κ ℝ) (h : Tends (BoxTends F) F f f0) (k : κ) :
    Tendsto (fun t => rangeUpper m (b t) (f t) k) F (𝓝 (rangeUpper m b0 f0 k)) ∧
      Tendsto (fun t => rangeLower m (b t) (f t) k) F (𝓝 (rangeLower m b0 f0 k)) := by
  have u := (box_cont F).upper b b0 _ _ _ _ hb (fun i => h.wu i k) (h.bu k)
  have l := (box_cont F).lower b b0 _ _ _ _ hb (fun i => h.wl i k) (h.bl k)
  cases m with
  | hybrid => exact ⟨(h.uc k).min u, (h.lc k).max l⟩
  | ibp => exact ⟨h.uc k, h.lc k⟩
  | affine => exact ⟨u, l⟩

theorem tendsto_close {T : Type} {F : Filter T} {u : T → ℝ} {u0 : ℝ} (h : Tendsto u F (𝓝 u0)) {τ : ℝ} (hτ : 0 < τ) : ∀ᶠ t in F, |u0 - u t| ≤ τ := by
  filter_upwards [Metric.tendsto_nhds.1 h τ hτ] with t ht
  rw [abs_sub_comm]
  exact ht.le

variable [DecidableEq ι]

/-- C148, forward conversions: the bounds that `get_range_box` reads are continuous in the corners of the box and in the parameters, at every point
where each ReLU is steady for the bounds that `get_range_box` reads at its input.  In ibp mode there is no condition. -/
theorem C148_forward (m : Mode) (eps : ℝ) (he : 0 < eps) (slope : Slope) (N : Net β ι κ) (M : β → ℝ) (b : BoxOf ι ℝ) (hw : (N.map M).WF)
    (hf : (N.map M).NoFinetune)
    (h : m ≠ .ibp → (N.map M).EachRelu slope fun s n => ∀ k,
      Steady eps s (rangeUpper m b (n.onBox m eps slope b) k) (rangeLower m b (n.onBox m eps slope b) k))
    (k : κ) (τ : ℝ) (hτ : 0 < τ) :
    ∃ ρ, 0 < ρ ∧ ∀ (M' : β → ℝ) (b' : BoxOf ι ℝ), (N.map M').NoFinetune → (∀ c, |M c - M' c| ≤ ρ) → b.Within b' (fun _ => ρ) →
      |rangeUpper m b ((N.map M).onBox m eps slope b) k - rangeUpper m b' ((N.map M').onBox m eps slope b') k| ≤ τ ∧
        |rangeLower m b ((N.map M).onBox m eps slope b) k - rangeLower m b' ((N.map M').onBox m eps slope b') k| ≤ τ := by
  refine near_of_seq_box M b (fun M' => (N.map M').NoFinetune) _ fun Ms bs hok hM h1 h2 => ?_
  have hb : BoxTends atTop bs b := ⟨h1, h2⟩
  have t := net_tends (box_cont atTop) m he slope _ _ (input_box_tends atTop m bs b hb) Ms M hM N hok hf hw fun ha => by
    have := h (by rintro rfl; exact absurd ha (by decide))
    have e : ∀ {κ : Type} (n : Net ℝ ι κ) (k : κ), rangeUpper m b (n.onBox m eps slope b) k =
        ((n.forward boxDomain m eps slope (inputTensorsBox m b.1 b.2)).tighten boxDomain m true true).uc k ∧
        rangeLower m b (n.onBox m eps slope b) k =
        ((n.forward boxDomain m eps slope (inputTensorsBox m b.1 b.2)).tighten boxDomain m true true).lc k := fun n k =>
      range_tighten m b _ (Net.forward_x ..) k
    simpa only [e] using this
  have r := range_tends m bs b hb _ _ t k
  exact (tendsto_close r.1 hτ).and (tendsto_close r.2 hτ)

/-- C148, forward conversions: the entries of the affine bounds themselves are continuous. -/
theorem C148_weights (m : Mode) (eps : ℝ) (he : 0 < eps) (slope : Slope) (N : Net β ι κ) (M : β → ℝ) (b : BoxOf ι ℝ) (hw : (N.map M).WF)
    (hf : (N.map M).NoFinetune)
    (h : m ≠ .ibp → (N.map M).EachRelu slope fun s n => ∀ k,
      Steady eps s (rangeUpper m b (n.onBox m eps slope b) k) (rangeLower m b (n.onBox m eps slope b) k))
    (i : ι) (k : κ) (τ : ℝ) (hτ : 0 < τ) :
    ∃ ρ, 0 < ρ ∧ ∀ (M' : β → ℝ) (b' : BoxOf ι ℝ), (N.map M').NoFinetune → (∀ c, |M c - M' c| ≤ ρ) → b.Within b' (fun _ => ρ) →
      |((N.map M).onBox m eps slope b).wu i k - ((N.map M').onBox m eps slope b').wu i k| ≤ τ ∧
      |((N.map M).onBox m eps slope b).bu k - ((N.map M').onBox m eps slope b').bu k| ≤ τ ∧
      |((N.map M).onBox m eps slope b).wl i k - ((N.map M').onBox m eps slope b').wl i k| ≤ τ ∧
      |((N.map M).onBox m eps slope b).bl k - ((N.map M').onBox m eps slope b').bl k| ≤ τ := by
  refine near_of_seq_box M b (fun M' => (N.map M').NoFinetune) _ fun Ms bs hok hM h1 h2 => ?_
  have hb : BoxTends atTop bs b := ⟨h1, h2⟩
  have t := net_tends (box_cont atTop) m he slope _ _ (input_box_tends atTop m bs b hb) Ms M hM N hok hf hw fun ha => by
    have := h (by rintro rfl; exact absurd ha (by decide))
    have e : ∀ {κ : Type} (n : Net ℝ ι κ) (k : κ), rangeUpper m b (n.onBox m eps slope b) k =
        ((n.forward boxDomain m eps slope (inputTensorsBox m b.1 b.2)).tighten boxDomain m true true).uc k ∧
        rangeLower m b (n.onBox m eps slope b) k =
        ((n.forward boxDomain m eps slope (inputTensorsBox m b.1 b.2)).tighten boxDomain m true true).lc k := fun n k =>
      range_tighten m b _ (Net.forward_x ..) k
    simpa only [e] using this
  exact (tendsto_close (t.wu i k) hτ).and ((tendsto_close (t.bu k) hτ).and ((tendsto_close (t.wl i k) hτ).and (tendsto_close (t.bl k) hτ)))

/-- The bounds used by a backward conversion at the input `n` of a layer, as `get_range_box` reads them: those of the forward pass, or those of the
backward conversion of the part of the network below. -/
def inputRange (m : Mode) (eps : ℝ) (slope : Slope) (uf : Bool) (b : BoxOf ι ℝ) {κ : Type} (n : Net ℝ ι κ) (u l : κ → ℝ) : Prop :=
  ∃ f : Full (BoxOf ι ℝ) ι κ ℝ, (if uf then f = n.onBox m eps slope b else (boxCrown m eps slope false b.1 b.2).model n = .ok f) ∧
    u = rangeUpper m b f ∧ l = rangeLower m b f

/-- C148, backward conversions of a chain (`crown`, and `crown-forward-*` with a forward pass), in every mode. -/
theorem C148_crown (m : Mode) (uf : Bool) (eps : ℝ) (he : 0 < eps) (slope : Slope) (N : Net β ι κ) (hc : N.Chain) (M : β → ℝ) (b : BoxOf ι ℝ)
    (hw : (N.map M).WF) (hf : (N.map M).NoFinetune)
    (h : (N.map M).EachRelu slope fun s n => ∀ u l, inputRange m eps slope uf b n u l → ∀ k, Steady eps s (u k) (l k))
    (k : κ) (τ : ℝ) (hτ : 0 < τ) :
    ∃ out, (boxCrown m eps slope uf b.1 b.2).model (N.map M) = .ok out ∧
    ∃ ρ, 0 < ρ ∧ ∀ (M' : β → ℝ) (b' : BoxOf ι ℝ), (N.map M').NoFinetune → (∀ c, |M c - M' c| ≤ ρ) → b.Within b' (fun _ => ρ) →
      ∃ out', (boxCrown m eps slope uf b'.1 b'.2).model (N.map M') = .ok out' ∧
      |rangeUpper m b out k - rangeUpper m b' out' k| ≤ τ ∧ |rangeLower m b out k - rangeLower m b' out' k| ≤ τ := by
  have hs : (N.map M).EachRelu slope fun s n => ∀ f, CrownCfg.childInput ⟨boxDomain, Prod.mk, m, eps, slope, uf, inputTensorsBox m b.1 b.2⟩ n
      (CrownCfg.node ⟨boxDomain, Prod.mk, m, eps, slope, uf, inputTensorsBox m b.1 b.2⟩ n) = .ok f →
        ∀ k, Steady eps s ((f.tighten boxDomain m true true).uc k) ((f.tighten boxDomain m true true).lc k) := by
    have e : ∀ {κ : Type} (n : Net ℝ ι κ) (f : Full (BoxOf ι ℝ) ι κ ℝ),
        CrownCfg.childInput ⟨boxDomain, Prod.mk, m, eps, slope, uf, inputTensorsBox m b.1 b.2⟩ n
          (CrownCfg.node ⟨boxDomain, Prod.mk, m, eps, slope, uf, inputTensorsBox m b.1 b.2⟩ n) = .ok f →
        inputRange m eps slope uf b n (f.tighten boxDomain m true true).uc (f.tighten boxDomain m true true).lc := by
      intro κ n f hf
      have key : f.x = b := by
        unfold CrownCfg.childInput at hf
        split_ifs at hf
        · rw [← Except.ok.inj hf]; exact Net.forward_x ..
        · cases hn : (CrownCfg.node ⟨boxDomain, Prod.mk, m, eps, slope, uf, inputTensorsBox m b.1 b.2⟩ n).first with
          | error e => rw [hn] at hf; exact absurd hf (by simp [Except.map])
          | ok r => rw [hn] at hf; rw [← Except.ok.inj hf]; exact convert_x ..
      refine ⟨f, ?_, funext fun k => (range_tighten m b f key k).1.symm, funext fun k => (range_tighten m b f key k).2.symm⟩
      cases uf with
      | true => rw [if_pos rfl]; rw [CrownCfg.childInput, if_pos rfl] at hf; exact (Except.ok.inj hf).symm
      | false => rw [if_neg Bool.false_ne_true]; rw [CrownCfg.childInput, if_neg Bool.false_ne_true] at hf; exact hf
    have mono : ∀ {κ : Type} (n : Net ℝ ι κ), (n.EachRelu slope fun s n => ∀ u l, inputRange m eps slope uf b n u l → ∀ k, Steady eps s (u k) (l k)) →
        n.EachRelu slope fun s n => ∀ f, CrownCfg.childInput ⟨boxDomain, Prod.mk, m, eps, slope, uf, inputTensorsBox m b.1 b.2⟩ n
          (CrownCfg.node ⟨boxDomain, Prod.mk, m, eps, slope, uf, inputTensorsBox m b.1 b.2⟩ n) = .ok f →
          ∀ k, Steady eps s ((f.tighten boxDomain m true true).uc k) ((f.tighten boxDomain m true true).lc k) := by
      intro κ n
      induction n with
      | input => exact id
      | layer n l ih =>
        refine fun h => ⟨ih h.1, ?_⟩
        have := h.2
        cases l with
        | relu gf gb => exact fun f hf => this _ _ (e _ f hf)
        | _ => trivial
      | merge op n0 n1 ih0 ih1 =>
        refine fun h => ⟨ih0 h.1, ih1 h.2.1, ?_⟩
        have := h.2.2
        cases op with
        | maximum => exact fun f hf => this _ _ (e _ f hf)
        | minimum => exact fun f hf => this _ _ (e _ f hf)
        | _ => trivial
    exact mono _ h
  have st : ∀ bs : ℕ → BoxOf ι ℝ, BoxTends atTop bs b → m = .ibp → BoxTends atTop
      (fun t => ((inputTensorsBox m (bs t).1 (bs t).2).lc, (inputTensorsBox m (bs t).1 (bs t).2).uc))
      ((inputTensorsBox m b.1 b.2).lc, (inputTensorsBox m b.1 b.2).uc) := by
    rintro bs hb rfl
    exact hb
  have run := fun (Ms : ℕ → β → ℝ) (bs : ℕ → BoxOf ι ℝ) (hok : ∀ n, (N.map (Ms n)).NoFinetune)
      (hM : ∀ c, Tendsto (fun n => Ms n c) atTop (𝓝 (M c))) (hb : BoxTends atTop bs b) =>
    (node_tends (box_cont atTop) m he slope Prod.mk uf _ _ (input_box_tends atTop m bs b hb) (st bs hb) Ms M hM N hc hok hf hw hs).1
  obtain ⟨r, r0, -, q2, -⟩ := run (fun _ => M) (fun _ => b) (fun _ => hf) (fun _ => tendsto_const_nhds)
    ⟨fun _ => tendsto_const_nhds, fun _ => tendsto_const_nhds⟩
  refine ⟨convert2BackwardMode boxDomain Prod.mk m (inputTensorsBox m b.1 b.2) r0, by rw [CrownCfg.model, boxCrown, q2]; rfl, ?_⟩
  refine near_of_seq_box M b (fun M' => (N.map M').NoFinetune) _ fun Ms bs hok hM h1 h2 => ?_
  have hb : BoxTends atTop bs b := ⟨h1, h2⟩
  obtain ⟨r', r0', p1, p2, p3⟩ := run Ms bs hok hM hb
  obtain rfl : r0 = r0' := by rw [q2] at p2; exact Except.ok.inj p2
  have t := convert_tends (box_cont atTop) m Prod.mk _ _ (input_box_tends atTop m bs b hb) (st bs hb) r' r0 p3
  have g := range_tends m bs b hb _ _ t k
  filter_upwards [tendsto_close g.1 hτ, tendsto_close g.2 hτ] with n h3 h4
  exact ⟨_, by rw [CrownCfg.model, boxCrown, p1 n]; rfl, h3, h4⟩

end

section
variable {β ι κ : Type} [Fintype ι] [DecidableEq ι]

/-- A network without `Maximum` and `Minimum` whose ReLUs all see inputs that really vary by more than `eps` on the box. -/
def Net.Varies (eps : ℝ) (b : BoxOf ι ℝ) {κ : Type} (n : Net ℝ ι κ) : Prop :=
  n.EachRelu .sSlope fun s n => s = .sSlope ∧ ∀ k, ∃ p ∈ Box b.1 b.2, ∃ q ∈ Box b.1 b.2, eps < n.eval p k - n.eval q k

theorem varies_steady (m : Mode) (eps : ℝ) (he : 0 < eps) (b : BoxOf ι ℝ) {κ : Type} (n : Net ℝ ι κ) (hn : n.WF) (h : n.Varies eps b) :
    n.SliverOK boxDomain m eps .sSlope (inputTensorsBox m b.1 b.2) ∧ n.EachRelu .sSlope fun s n => ∀ k,
      Steady eps s (rangeUpper m b (n.onBox m eps .sSlope b) k) (rangeLower m b (n.onBox m eps .sSlope b) k) := by
  induction n with
  | input => exact ⟨trivial, trivial⟩
  | layer n l ih =>
    obtain ⟨a1, a2⟩ := ih hn.1 h.1
    have key : (∀ k, ∃ p ∈ Box b.1 b.2, ∃ q ∈ Box b.1 b.2, eps < n.eval p k - n.eval q k) → ∀ k,
        eps < (((n.onBox m eps .sSlope b).tighten boxDomain m true true).uc k) - ((n.onBox m eps .sSlope b).tighten boxDomain m true true).lc k := by
      intro hv k
      obtain ⟨p, hp, q, hq, hpq⟩ := hv k
      have s := boxDomain_sound b.1 b.2
      have c := fun p hp => tighten_const boxDomain m false (n.onBox m eps .sSlope b) (Box b.1 b.2) (by rw [Net.onBox, Net.forward_x]; exact s) p hp _
        (Net.forward_valid boxDomain m eps he .sSlope _ _ s p hp (C27_input_box m b.1 b.2 p hp) n hn.1 a1) k
      linarith [(c p hp).2, (c q hq).1]
    have hl := h.2
    cases l with
    | relu gf gb =>
      have w := key hl.2
      refine ⟨⟨a1, fun _ k hk => ?_⟩, a2, fun k => ?_⟩
      · have := w k
        have := hk.2.2
        exact absurd (w k) (not_lt.2 hk.2.2.le)
      · rw [(range_tighten m b _ (Net.forward_x ..) k).1, (range_tighten m b _ (Net.forward_x ..) k).2]
        exact .inr (.inr ⟨w k, id⟩)
    | _ => exact ⟨⟨a1, trivial⟩, a2, trivial⟩
  | merge op n0 n1 ih0 ih1 =>
    obtain ⟨a1, a2⟩ := ih0 hn.1 h.1
    obtain ⟨b1, b2⟩ := ih1 hn.2 h.2.1
    have := h.2.2
    cases op with
    | maximum => exact absurd this.1 (by decide)
    | minimum => exact absurd this.1 (by decide)
    | _ => exact ⟨⟨a1, b1, trivial⟩, a2, b2, trivial⟩

/-- C148: with `slope="same-slope"` the bounds of `forward-affine` and `forward-hybrid` are continuous wherever the input of every ReLU really varies by
more than `keras.config.epsilon()`. -/
theorem C148_same_slope (m : Mode) (eps : ℝ) (he : 0 < eps) (N : Net β ι κ) (M : β → ℝ) (b : BoxOf ι ℝ) (hw : (N.map M).WF)
    (hf : (N.map M).NoFinetune) (h : (N.map M).Varies eps b) (k : κ) (τ : ℝ) (hτ : 0 < τ) :
    ∃ ρ, 0 < ρ ∧ ∀ (M' : β → ℝ) (b' : BoxOf ι ℝ), (N.map M').NoFinetune → (∀ c, |M c - M' c| ≤ ρ) → b.Within b' (fun _ => ρ) →
      |rangeUpper m b ((N.map M).onBox m eps .sSlope b) k - rangeUpper m b' ((N.map M').onBox m eps .sSlope b') k| ≤ τ ∧
        |rangeLower m b ((N.map M).onBox m eps .sSlope b) k - rangeLower m b' ((N.map M').onBox m eps .sSlope b') k| ≤ τ :=
  C148_forward m eps he .sSlope N M b hw hf (fun _ => (varies_steady m eps he b _ hw h).2) k τ hτ

end

/-- The lower line between a negative and a positive bound. -/
theorem hull_cross (s : Slope) (u l : ℚ) (hl : l < 0) (hu : 0 < u) (he : 10000000⁻¹ ≤ u - l) :
    (linearHullRelu 10000000⁻¹ s 1 u l).bl = 0 ∧ (s = .zSlope → (linearHullRelu 10000000⁻¹ s 1 u l).wl = 0) ∧
      (s = .oSlope → (linearHullRelu 10000000⁻¹ s 1 u l).wl = 1) ∧
      (s = .aSlope → 0 < u + l → (linearHullRelu 10000000⁻¹ s 1 u l).wl = 1) := by
  have r1 : relu u = u := max_eq_left hu.le
  have r2 : relu l = 0 := max_eq_right hl.le
  refine ⟨by simp [linearHullRelu], ?_, ?_, ?_⟩
  · rintro rfl; simp [linearHullRelu, indexDead_of_pos hu, indexLinear_of_neg hl]
  · rintro rfl; simp [linearHullRelu, indexDead_of_pos hu, indexLinear_of_neg hl]
  · rintro rfl h
    have : 0 < u / (u - l) - 2⁻¹ := by
      rw [sub_pos, lt_div_iff₀ (by linarith)]
      linarith
    simp [linearHullRelu, indexDead_of_pos hu, indexLinear_of_neg hl, r1, r2, max_eq_right he, ksign, this.not_gt, this.ne', kclip]

theorem hull_lin' (s : Slope) (u l : ℚ) (hl : 0 ≤ l) : linearHullRelu 10000000⁻¹ s 1 u l = ⟨1, 0, 1, 0⟩ := by
  simp [linearHullRelu, indexLinear_of_nonneg hl]

/-- `ReLU(x) + ReLU(2 x + 10) + ReLU(10 - x)`. -/
def edgeNet : Net ℚ (Fin 1) (Fin 1) :=
  .layer (.layer (.layer .input (.dense (fun _ o => if o = (0 : Fin 3) then 1 else if o = 1 then 2 else -1) (fun o => if o = (0 : Fin 3) then 0 else 10)))
    (.relu (fun _ => 1) (fun _ => 1))) (.dense (fun _ _ => 1) (fun _ => 0))

theorem edge_moved (m : Mode) (hm : m ≠ .ibp) (d : ℚ) (h0 : 0 < d) (h1 : d < 1) :
    rangeLower m (fun _ => -1, fun _ => d) (edgeNet.onBox m (1 / 10000000) .oSlope (fun _ => -1, fun _ => d)) 0 = 18 := by
  have e1 := hull_cross .oSlope d (-1) (by norm_num) h0 (by norm_num; linarith)
  have e2 := hull_lin' .oSlope (2 * d + 10) (-2 + 10) (by norm_num)
  have e3 := hull_lin' .oSlope (1 + 10) (-d + 10) (by linarith)
  have w := e1.2.2.1 rfl
  have r1 : relu (-1 : ℚ) = 0 := max_eq_right (by norm_num)
  have r2 : relu (-d + 10) = -d + 10 := max_eq_left (by linarith)
  have r3 : relu (-2 + 10 : ℚ) = 8 := by norm_num [relu]
  cases m with
  | ibp => exact absurd rfl hm
  | affine =>
    simp [rangeLower, Net.onBox, edgeNet, Net.forward, Lay.forward, denseT, reluT, inputTensorsBox, boxDomain, Full.tighten, getIbp,
      getAffine, getUpperBox, getLowerBox, Fin.sum_univ_three, e1.1, w, e2, e3]
    norm_num
  | hybrid =>
    simp [rangeLower, Net.onBox, edgeNet, Net.forward, Lay.forward, denseT, reluT, inputTensorsBox, boxDomain, Full.tighten, getIbp,
      getAffine, getUpperBox, getLowerBox, Fin.sum_univ_three, e1.1, w, e2, e3, r1, r2, r3]
    norm_num
    linarith

theorem kink_moved_a (m : Mode) (hm : m ≠ .ibp) (d : ℚ) (h0 : 0 < d) (h1 : d < 1) :
    rangeLower m (kinkBox d) ((kinkNet 0).onBox m (1 / 10000000) .aSlope (kinkBox d)) 0 = 10 := by
  have e1 := hull_cross .aSlope (1 + d) (-1) (by norm_num) (by linarith) (by norm_num; linarith)
  have e2 := hull_lin' .aSlope (1 + 10) (-d + -1 + 10) (by linarith)
  have w := e1.2.2.2 rfl (by linarith)
  have r1 : relu (-1 : ℚ) = 0 := max_eq_right (by norm_num)
  have r2 : relu (-d + -1 + 10) = -d + -1 + 10 := max_eq_left (by linarith)
  cases m with
  | ibp => exact absurd rfl hm
  | affine =>
    simp [kinkBox, rangeLower, Net.onBox, kinkNet, kinkPre, Net.forward, Lay.forward, denseT, reluT, inputTensorsBox, boxDomain, Full.tighten, getIbp,
      getAffine, getUpperBox, getLowerBox, e1.1, w, e2]
  | hybrid =>
    simp [kinkBox, rangeLower, Net.onBox, kinkNet, kinkPre, Net.forward, Lay.forward, denseT, reluT, inputTensorsBox, boxDomain, Full.tighten, getIbp,
      getAffine, getUpperBox, getLowerBox, e1.1, w, e2, r1, r2]
    linarith

theorem kink_moved_z (m : Mode) (hm : m ≠ .ibp) (d : ℚ) (h0 : 0 < d) :
    rangeLower m (fun _ => -d, fun _ => 1) ((kinkNet 0).onBox m (1 / 10000000) .zSlope (fun _ => -d, fun _ => 1)) 0 = 9 := by
  have e1 := hull_cross .zSlope 1 (-d) (by linarith) (by norm_num) (by norm_num; linarith)
  have e2 := hull_lin' .zSlope (d + 10) (-1 + 10) (by norm_num)
  have w := e1.2.1 rfl
  have r1 : relu (-d) = 0 := max_eq_right (by linarith)
  have r2 : relu (-1 + 10 : ℚ) = 9 := by norm_num [relu]
  cases m with
  | ibp => exact absurd rfl hm
  | affine =>
    simp [rangeLower, Net.onBox, kinkNet, kinkPre, Net.forward, Lay.forward, denseT, reluT, inputTensorsBox, boxDomain, Full.tighten, getIbp,
      getAffine, getUpperBox, getLowerBox, e1.1, w, e2]
    norm_num
  | hybrid =>
    simp [rangeLower, Net.onBox, kinkNet, kinkPre, Net.forward, Lay.forward, denseT, reluT, inputTensorsBox, boxDomain, Full.tighten, getIbp,
      getAffine, getUpperBox, getLowerBox, e1.1, w, e2, r1, r2]
    norm_num

/-- C148: the exclusion of ties is needed.  With every slope but `same-slope` there is a network and a box, whose ReLUs see ranges far wider than
`keras.config.epsilon()`, at which the lower bound of `forward-affine` and of `forward-hybrid` jumps by 1. -/
theorem C148_tie (m : Mode) (hm : m ≠ .ibp) (slope : Slope) (hs : slope ≠ .sSlope) :
    ∃ (N : Net ℚ (Fin 1) (Fin 1)) (b : BoxOf (Fin 1) ℚ), N.WF ∧ N.NoFinetune ∧ b.1 0 + 1 ≤ b.2 0 ∧
      ∀ ρ, 0 < ρ → ∃ b', b.Within b' (fun _ => ρ) ∧
        |rangeLower m b (N.onBox m (1 / 10000000) slope b) 0 - rangeLower m b' (N.onBox m (1 / 10000000) slope b') 0| = 1 := by
  have hmin : ∀ ρ : ℚ, 0 < ρ → ∃ d, 0 < d ∧ d < 1 ∧ d ≤ ρ := fun ρ h =>
    ⟨min ρ (1 / 2), lt_min h (by norm_num), (min_le_right _ _).trans_lt (by norm_num), min_le_left _ _⟩
  have wk : (kinkNet 0).WF ∧ (kinkNet 0).NoFinetune := by
    simp [kinkNet, kinkPre, Net.WF, Lay.WF, Net.NoFinetune, Lay.NoFinetune]
  have we : edgeNet.WF ∧ edgeNet.NoFinetune := by
    simp [edgeNet, Net.WF, Lay.WF, Net.NoFinetune, Lay.NoFinetune]
  cases slope with
  | sSlope => exact absurd rfl hs
  | vSlope =>
    refine ⟨kinkNet 0, kinkBox 0, wk.1, wk.2, by norm_num [kinkBox], fun ρ h0 => ?_⟩
    obtain ⟨d, d0, d1, d2⟩ := hmin ρ h0
    refine ⟨kinkBox d, fun i => ⟨((kinkBox_within d d0.le) i).1.trans d2, ((kinkBox_within d d0.le) i).2.trans d2⟩, ?_⟩
    have h9 : rangeLower m (kinkBox 0) ((kinkNet 0).onBox m (1 / 10000000) .vSlope (kinkBox 0)) 0 = 9 := by
      cases m with
      | ibp => exact absurd rfl hm
      | affine => decide +kernel
      | hybrid => decide +kernel
    have h10 : rangeLower m (kinkBox d) ((kinkNet 0).onBox m (1 / 10000000) .vSlope (kinkBox d)) 0 = 10 + 0 := by
      cases m with
      | ibp => exact absurd rfl hm
      | affine => exact kink_affine 0 d le_rfl one_pos d1 (by linarith)
      | hybrid => exact kink_hybrid 0 d le_rfl one_pos d1 (by linarith)
    rw [h9, h10]
    norm_num
  | aSlope =>
    refine ⟨kinkNet 0, kinkBox 0, wk.1, wk.2, by norm_num [kinkBox], fun ρ h0 => ?_⟩
    obtain ⟨d, d0, d1, d2⟩ := hmin ρ h0
    refine ⟨kinkBox d, fun i => ⟨((kinkBox_within d d0.le) i).1.trans d2, ((kinkBox_within d d0.le) i).2.trans d2⟩, ?_⟩
    have h9 : rangeLower m (kinkBox 0) ((kinkNet 0).onBox m (1 / 10000000) .aSlope (kinkBox 0)) 0 = 9 := by
      cases m with
      | ibp => exact absurd rfl hm
      | affine => decide +kernel
      | hybrid => decide +kernel
    rw [h9, kink_moved_a m hm d d0 d1]
    norm_num
  | zSlope =>
    refine ⟨kinkNet 0, (fun _ => 0, fun _ => 1), wk.1, wk.2, by norm_num, fun ρ h0 => ?_⟩
    obtain ⟨d, d0, d1, d2⟩ := hmin ρ h0
    refine ⟨(fun _ => -d, fun _ => 1), fun i => by simp [abs_of_pos d0, d2, h0.le], ?_⟩
    have h9 : rangeLower m (fun _ => 0, fun _ => 1) ((kinkNet 0).onBox m (1 / 10000000) .zSlope (fun _ => 0, fun _ => 1)) 0 = 10 := by
      cases m with
      | ibp => exact absurd rfl hm
      | affine => decide +kernel
      | hybrid => decide +kernel
    rw [h9, kink_moved_z m hm d d0]
    norm_num
  | oSlope =>
    refine ⟨edgeNet, (fun _ => -1, fun _ => 0), we.1, we.2, by norm_num, fun ρ h0 => ?_⟩
    obtain ⟨d, d0, d1, d2⟩ := hmin ρ h0
    refine ⟨(fun _ => -1, fun _ => d), fun i => by simp [abs_of_pos d0, d2, h0.le], ?_⟩
    have h9 : rangeLower m (fun _ => -1, fun _ => 0) (edgeNet.onBox m (1 / 10000000) .oSlope (fun _ => -1, fun _ => 0)) 0 = 19 := by
      cases m with
      | ibp => exact absurd rfl hm
      | affine => decide +kernel
      | hybrid => decide +kernel
    rw [h9, edge_moved m hm d d0 d1]
    norm_num

/-- `40000000 ReLU(x)`. -/
def thinNet : Net ℚ (Fin 1) (Fin 1) :=
  .layer (.layer .input (.relu (fun _ => 1) (fun _ => 1))) (.dense (fun _ _ => 40000000) (fun _ => 0))

theorem hull_thin (s : Slope) (d : ℚ) (h0 : 0 < d) (h1 : d < 1 / 80000000) :
    (linearHullRelu 10000000⁻¹ s 1 (1 / 20000000) (-d)).wu = 1 / 2 ∧ (linearHullRelu 10000000⁻¹ s 1 (1 / 20000000) (-d)).bu = d / 2 := by
  have r1 : relu (1 / 20000000 : ℚ) = 1 / 20000000 := max_eq_left (by norm_num)
  have r2 : relu (-d) = 0 := max_eq_right (by linarith)
  have hl : -d < 0 := by linarith
  have e : max (10000000⁻¹ : ℚ) (1 / 20000000 - -d) = 10000000⁻¹ := max_eq_left (by norm_num; linarith)
  have hu : (0 : ℚ) < 1 / 20000000 := by norm_num
  constructor <;> simp only [linearHullRelu, indexDead_of_pos hu, indexLinear_of_neg hl, r1, r2, e] <;> ring

/-- C148: the exclusion of ranges narrower than `keras.config.epsilon()` is needed, with every slope: the upper bound of `40000000 ReLU(x)` is 2 on
`[0, 5e-8]` and below 3/2 on `[-d, 5e-8]` for every small `d > 0`, though the second box is larger. -/
theorem C148_thin (m : Mode) (hm : m ≠ .ibp) (slope : Slope) :
    rangeUpper m (fun _ => 0, fun _ => 1 / 20000000) (thinNet.onBox m (1 / 10000000) slope (fun _ => 0, fun _ => 1 / 20000000)) 0 = 2 ∧
      ∀ d : ℚ, 0 < d → d < 1 / 80000000 →
        rangeUpper m (fun _ => -d, fun _ => 1 / 20000000) (thinNet.onBox m (1 / 10000000) slope (fun _ => -d, fun _ => 1 / 20000000)) 0 < 3 / 2 := by
  refine ⟨?_, fun d h0 h1 => ?_⟩
  · cases m with
    | ibp => exact absurd rfl hm
    | affine => cases slope <;> decide +kernel
    | hybrid => cases slope <;> decide +kernel
  · have e := hull_thin slope d h0 h1
    have e' : (1 / 20000000 : ℚ) = 20000000⁻¹ := by norm_num
    rw [e'] at e
    cases m with
    | ibp => exact absurd rfl hm
    | affine =>
      simp [rangeUpper, Net.onBox, thinNet, Net.forward, Lay.forward, denseT, reluT, inputTensorsBox, boxDomain, Full.tighten, getIbp,
        getAffine, getUpperBox, getLowerBox, e.1, e.2]
      norm_num
      linarith
    | hybrid =>
      simp [rangeUpper, Net.onBox, thinNet, Net.forward, Lay.forward, denseT, reluT, inputTensorsBox, boxDomain, Full.tighten, getIbp,
        getAffine, getUpperBox, getLowerBox, e.1, e.2]
      right
      norm_num
      linarith

/-- The parameters of `driftNet`: `1 - ReLU(2 x + 1)`. -/
def tieMemory : Fin 4 → ℝ := ![2, 1, -1, 1]

theorem tieNet_ok : (driftNet.map tieMemory).WF ∧ (driftNet.map tieMemory).NoFinetune := by
  simp [driftNet, tieMemory, Net.map, Lay.map, Net.WF, Lay.WF, Net.NoFinetune, Lay.NoFinetune]

/-- On `[-1, 1]` the only ReLU of `driftNet` sees `[-1, 3]`, which is steady for every slope. -/
theorem tieNet_steady (m : Mode) (slope : Slope) : (driftNet.map tieMemory).EachRelu slope fun s n => ∀ k,
    Steady (1 / 10000000) s (rangeUpper m (fun _ => -1, fun _ => 1) (n.onBox m (1 / 10000000) slope (fun _ => -1, fun _ => 1)) k)
      (rangeLower m (fun _ => -1, fun _ => 1) (n.onBox m (1 / 10000000) slope (fun _ => -1, fun _ => 1)) k) := by
  refine ⟨⟨⟨trivial, trivial⟩, fun k => ?_⟩, trivial⟩
  have h1 : rangeUpper m (fun _ => -1, fun _ => 1) (((Net.layer .input (.dense (fun (_ : Fin 1) (_ : Fin 1) => (0 : Fin 4)) (fun _ => 1))).map
      tieMemory).onBox m (1 / 10000000) slope (fun _ => -1, fun _ => 1)) k = 3 := by
    cases m <;> simp [rangeUpper, Net.onBox, Net.map, Lay.map, tieMemory, Net.forward, Lay.forward, denseT, inputTensorsBox, boxDomain, Full.tighten,
      getIbp, getAffine, getUpperBox, getLowerBox] <;> norm_num
  have h2 : rangeLower m (fun _ => -1, fun _ => 1) (((Net.layer .input (.dense (fun (_ : Fin 1) (_ : Fin 1) => (0 : Fin 4)) (fun _ => 1))).map
      tieMemory).onBox m (1 / 10000000) slope (fun _ => -1, fun _ => 1)) k = -1 := by
    cases m <;> simp [rangeLower, Net.onBox, Net.map, Lay.map, tieMemory, Net.forward, Lay.forward, denseT, inputTensorsBox, boxDomain, Full.tighten,
      getIbp, getAffine, getUpperBox, getLowerBox] <;> norm_num
  rw [h1, h2]
  refine .inr (.inr ⟨by norm_num, ?_⟩)
  cases slope <;> simp [Slope.Tied]
  all_goals norm_num

/-- `C148_forward` applied to `driftNet` on `[-1, 1]`, with every mode and slope. -/
example (m : Mode) (slope : Slope) : ∃ ρ, 0 < ρ ∧ ∀ (M' : Fin 4 → ℝ) (b' : BoxOf (Fin 1) ℝ), (driftNet.map M').NoFinetune →
    (∀ c, |tieMemory c - M' c| ≤ ρ) → BoxOf.Within (fun _ => -1, fun _ => 1) b' (fun _ => ρ) →
      |rangeUpper m (fun _ => -1, fun _ => 1) ((driftNet.map tieMemory).onBox m (1 / 10000000) slope (fun _ => -1, fun _ => 1)) 0 -
        rangeUpper m b' ((driftNet.map M').onBox m (1 / 10000000) slope b') 0| ≤ 1 / 1000 ∧
      |rangeLower m (fun _ => -1, fun _ => 1) ((driftNet.map tieMemory).onBox m (1 / 10000000) slope (fun _ => -1, fun _ => 1)) 0 -
        rangeLower m b' ((driftNet.map M').onBox m (1 / 10000000) slope b') 0| ≤ 1 / 1000 :=
  C148_forward m _ (by norm_num) slope driftNet tieMemory _ tieNet_ok.1 tieNet_ok.2 (fun _ => tieNet_steady m slope) 0 _ (by norm_num)

/-- `C148_crown` applied to it, with the forward pass. -/
example (m : Mode) (slope : Slope) : ∃ out,
    (boxCrown m (1 / 10000000) slope true (fun _ => -1) (fun _ => 1)).model (driftNet.map tieMemory) = .ok out ∧
    ∃ ρ, 0 < ρ ∧ ∀ (M' : Fin 4 → ℝ) (b' : BoxOf (Fin 1) ℝ), (driftNet.map M').NoFinetune →
    (∀ c, |tieMemory c - M' c| ≤ ρ) → BoxOf.Within (fun _ => -1, fun _ => 1) b' (fun _ => ρ) →
      ∃ out', (boxCrown m (1 / 10000000) slope true b'.1 b'.2).model (driftNet.map M') = .ok out' ∧
      |rangeUpper m (fun _ => -1, fun _ => 1) out 0 - rangeUpper m b' out' 0| ≤ 1 / 1000 ∧
      |rangeLower m (fun _ => -1, fun _ => 1) out 0 - rangeLower m b' out' 0| ≤ 1 / 1000 := by
  refine C148_crown m true _ (by norm_num) slope driftNet (by simp [driftNet, Net.Chain]) tieMemory (fun _ => -1, fun _ => 1) tieNet_ok.1 tieNet_ok.2 ?_
    0 _ (by norm_num)
  have h := (tieNet_steady m slope).1.2
  refine ⟨⟨⟨trivial, trivial⟩, ?_⟩, trivial⟩
  rintro u l ⟨f, hf, rfl, rfl⟩
  rw [if_pos rfl] at hf
  rw [hf]
  exact h

/-- The hypothesis of `C148_same_slope` for it: the input of the ReLU takes the values 3 and -1 at the corners. -/
example : (driftNet.map tieMemory).Varies (1 / 10000000) (fun _ => -1, fun _ => 1) := by
  refine ⟨⟨⟨trivial, trivial⟩, rfl, fun k => ⟨fun _ => 1, ?_, fun _ => -1, ?_, ?_⟩⟩, trivial⟩
  · simp [Box]
  · simp [Box]
  · simp [Net.eval, Net.map, Lay.map, Lay.eval, tieMemory]
    norm_num

end Decomon
