import Verif.Lemmas.Stable
import Verif.Props.Ball

/-!
C127: on a region where no activation switches, the affine bounds and the backward bounds are exact.
-/

namespace Decomon

section Generic
variable {X ι κ α : Type} [Fintype ι] [DecidableEq ι] [Field α] [LinearOrder α] [IsStrictOrderedRing α]

omit [DecidableEq ι] [IsStrictOrderedRing α] in
theorem Tip.exactOn {D : PertDomain X ι α} {m : Mode} {S : Set (ι → α)} {f : Full X ι κ α} {y : (ι → α) → κ → α} (h : Tip D m S f y)
    (ha : getAffine m = true → Pin m S f y) (u l : κ → α) (hu : ∀ k, u k = (f.tighten D m true true).uc k)
    (hl : ∀ k, l k = (f.tighten D m true true).lc k) : ExactOn m S f y u l := by
  refine ⟨fun hm p hp k => (ha hm).eq p hp k, fun k => ?_, fun k => ?_⟩
  · obtain ⟨⟨p, hp, e⟩, -⟩ := h.tight k
    rw [hu k]
    refine ⟨⟨p, hp, e.symm⟩, ?_⟩
    rintro _ ⟨q, hq, rfl⟩
    exact (h.valid q hq k).2
  · obtain ⟨-, p, hp, e⟩ := h.tight k
    rw [hl k]
    refine ⟨⟨p, hp, e.symm⟩, ?_⟩
    rintro _ ⟨q, hq, rfl⟩
    exact (h.valid q hq k).1

/-- C127, any perturbation domain: the affine bounds of a forward conversion are the network itself, and its tightened bounds the exact range. -/
theorem C127_forward (D : PertDomain X ι α) (m : Mode) (hm : getAffine m = true) (eps : α) (he : 0 < eps) (s : Slope) (inp : Full X ι ι α)
    (S : Set (ι → α)) (hS : D.Sound inp.x S) (hD : Attains D inp.x S) (hv : ∀ p ∈ S, Valid m false inp p p)
    (hi : ∀ p ∈ S, ∀ k, affEval (fun i => inp.wu i k) (inp.bu k) p = p k ∧ affEval (fun i => inp.wl i k) (inp.bl k) p = p k)
    (N : Net α ι κ) (hN : N.WF) (hk : N.Stable S) :
    let out := N.forward D m eps s inp
    ExactOn m S out (fun p => N.eval p) (out.tighten D m true true).uc (out.tighten D m true true).lc := by
  have h := net_pin hm eps he s inp hS hD ⟨hv, hi⟩ N hN hk
  exact (h.tip hm (by rw [Net.forward_x]; exact hS) (by rw [Net.forward_x]; exact hD)).exactOn (fun _ => h) _ _ (fun _ => rfl) fun _ => rfl

end Generic

section Box
variable {ι κ α : Type} [Fintype ι] [DecidableEq ι] [Field α] [LinearOrder α] [IsStrictOrderedRing α]

omit [DecidableEq ι] [IsStrictOrderedRing α] in
theorem range_tighten (m : Mode) (b : BoxOf ι α) (f : Full ((ι → α) × (ι → α)) ι κ α) (hx : f.x = b) (k : κ) :
    rangeUpper m b f k = (f.tighten boxDomain m true true).uc k ∧ rangeLower m b f k = (f.tighten boxDomain m true true).lc k := by
  subst hx
  cases m <;> exact ⟨rfl, rfl⟩

theorem box_pin (m : Mode) (hm : getAffine m = true) (xmin xmax : ι → α) : Pin m (Box xmin xmax) (inputTensorsBox m xmin xmax) fun p => p := by
  refine ⟨fun p hp => C27_input_box m xmin xmax p hp, fun p _ k => ?_⟩
  simp [Full.toBack, Back.evalU, Back.evalL, inputTensorsBox, hm, affEval]

/-- C127 on a box, forward conversion in affine or hybrid mode: both affine bounds are the network, and the bounds that `get_range_box` reads are
its greatest and its least value. -/
theorem C127_forward_box (m : Mode) (hm : getAffine m = true) (eps : α) (he : 0 < eps) (s : Slope) (N : Net α ι κ) (hN : N.WF) (b : BoxOf ι α)
    (hb : ∀ i, b.1 i ≤ b.2 i) (hk : N.Stable (Box b.1 b.2)) :
    (∀ p ∈ Box b.1 b.2, Valid m false (N.onBox m eps s b) p (N.eval p)) ∧
    ExactOn m (Box b.1 b.2) (N.onBox m eps s b) (fun p => N.eval p) (rangeUpper m b (N.onBox m eps s b)) (rangeLower m b (N.onBox m eps s b)) := by
  have h := net_pin (D := boxDomain) hm eps he s (inputTensorsBox m b.1 b.2) (boxDomain_sound b.1 b.2) (box_attains b.1 b.2 hb) (box_pin m hm b.1 b.2) N
    hN hk
  have hx : (N.onBox m eps s b).x = b := Net.forward_x ..
  exact ⟨h.valid, (h.tip hm (by rw [Net.forward_x]; exact boxDomain_sound b.1 b.2) (by rw [Net.forward_x]; exact box_attains b.1 b.2 hb)).exactOn
    (fun _ => h) _ _ (fun k => (range_tighten m b _ hx k).1) fun k => (range_tighten m b _ hx k).2⟩

theorem convert_x {X ν : Type} (D : PertDomain X ι α) (stack : (ι → α) → (ι → α) → X) (m : Mode) (inp : Full X ι ι α) (r : Back ι ν α) :
    (convert2BackwardMode D stack m inp r).x = inp.x := by
  simp only [convert2BackwardMode]; split_ifs <;> rfl

/-- C127 on a box, backward conversion of a chain: methods `crown` (every mode), `crown-forward-affine` and `crown-forward-hybrid`. -/
theorem C127_crown_box [fk : Fintype κ] (m : Mode) (uf : Bool) (hu : m = .ibp → uf = false) (eps : α) (he : 0 < eps) (s : Slope) (N : Net α ι κ)
    (hc : N.Chain) (hN : N.WF) (b : BoxOf ι α) (hb : ∀ i, b.1 i ≤ b.2 i) (hk : N.Stable (Box b.1 b.2)) :
    ∃ out, (boxCrown m eps s uf b.1 b.2).model N = .ok out ∧ (∀ p ∈ Box b.1 b.2, Valid m false out p (N.eval p)) ∧
      ExactOn m (Box b.1 b.2) out (fun p => N.eval p) (rangeUpper m b out) (rangeLower m b out) := by
  have hS := boxDomain_sound b.1 b.2
  have hA := box_attains b.1 b.2 hb
  have hS' : m = .ibp → boxDomain.Sound ((inputTensorsBox m b.1 b.2).lc, (inputTensorsBox m b.1 b.2).uc) (Box b.1 b.2) := by rintro rfl; exact hS
  have hA' : m = .ibp → Attains boxDomain ((inputTensorsBox m b.1 b.2).lc, (inputTensorsBox m b.1 b.2).uc) (Box b.1 b.2) := by rintro rfl; exact hA
  obtain ⟨⟨r, h1, h2⟩, -⟩ := node_pin (boxCrown m eps s uf b.1 b.2) he (Box b.1 b.2) hS hA hS' hA'
    (fun h => box_pin m h b.1 b.2) hu N hc hN hk fk
  obtain ⟨c1, c2, c3⟩ := convert_pin (boxCrown m eps s uf b.1 b.2) (Box b.1 b.2) hS hA hS' hA' r
    (fun p => N.eval p) h2
  refine ⟨_, by rw [CrownCfg.model, h1]; rfl, c2, c1.exactOn c3 _ _ (fun k => (range_tighten m b _ (convert_x ..) k).1)
    fun k => (range_tighten m b _ (convert_x ..) k).2⟩

/-- C127: the same with backward bounds `[M]`: the bounds of `Mᵀ y` are exact, for every matrix `M`. -/
theorem C127_back_box {ν : Type} [fk : Fintype κ] (m : Mode) (uf : Bool) (hu : m = .ibp → uf = false) (eps : α) (he : 0 < eps) (s : Slope)
    (N : Net α ι κ) (hc : N.Chain) (hN : N.WF) (M : κ → ν → α) (b : BoxOf ι α) (hb : ∀ i, b.1 i ≤ b.2 i) (hk : N.Stable (Box b.1 b.2)) :
    ∃ out, (boxCrown m eps s uf b.1 b.2).modelBack N M = .ok out ∧
      ExactOn m (Box b.1 b.2) out (fun p j => ∑ k, M k j * N.eval p k) (rangeUpper m b out) (rangeLower m b out) := by
  have hS := boxDomain_sound b.1 b.2
  have hA := box_attains b.1 b.2 hb
  have hS' : m = .ibp → boxDomain.Sound ((inputTensorsBox m b.1 b.2).lc, (inputTensorsBox m b.1 b.2).uc) (Box b.1 b.2) := by rintro rfl; exact hS
  have hA' : m = .ibp → Attains boxDomain ((inputTensorsBox m b.1 b.2).lc, (inputTensorsBox m b.1 b.2).uc) (Box b.1 b.2) := by rintro rfl; exact hA
  obtain ⟨-, h3⟩ := node_pin (boxCrown m eps s uf b.1 b.2) he (Box b.1 b.2) hS hA hS' hA'
    (fun h => box_pin m h b.1 b.2) hu N hc hN hk fk
  obtain ⟨r, h1, h2⟩ := h3 ν ⟨M, fun _ => 0, M, fun _ => 0⟩
  obtain ⟨c1, -, c3⟩ := convert_pin (boxCrown m eps s uf b.1 b.2) (Box b.1 b.2) hS hA hS' hA' r
    (fun p j => ∑ k, M k j * N.eval p k) fun p hp j => by
      have := h2 p hp j
      simpa only [Back.evalU, Back.evalL, affEval, add_zero] using this
  refine ⟨_, by rw [CrownCfg.modelBack, h1]; rfl, c1.exactOn c3 _ _ (fun k => (range_tighten m b _ (convert_x ..) k).1)
    fun k => (range_tighten m b _ (convert_x ..) k).2⟩

end Box

section Ball
variable {ι κ : Type} [Fintype ι] [DecidableEq ι] [Nonempty ι]

theorem ball_pin (m : Mode) (hm : getAffine m = true) (eps : ℝ) (q : PVal) (z : ι → ℝ) :
    Pin m (LpBall z eps q) (inputTensorsBall m eps q z) fun p => p := by
  refine ⟨fun p hp => C27_input_ball m eps q z p hp, fun p _ k => ?_⟩
  simp [Full.toBack, Back.evalU, Back.evalL, inputTensorsBall, hm, affEval]

omit [DecidableEq ι] in
/-- The bounds of `get_range_noise` are the tightened bounds. -/
theorem noise_tighten (m : Mode) (eps : ℝ) (q : PVal) (hq : q = .inf ∨ q = .fin 1 ∨ q = .fin 2) (z : ι → ℝ) (f : Full (ι → ℝ) ι κ ℝ) (hx : f.x = z)
    (k : κ) : noiseUpper m eps q z f k = .ok ((f.tighten (ballDomain eps q) m true true).uc k) ∧
      noiseLower m eps q z f k = .ok ((f.tighten (ballDomain eps q) m true true).lc k) := by
  subst hx
  obtain ⟨nu, a1, a2, -⟩ := noise_upper_eq eps (f.bu k) q f.x (fun i => f.wu i k) hq
  obtain ⟨nl, b1, -, b3⟩ := noise_upper_eq eps (f.bl k) q f.x (fun i => f.wl i k) hq
  rw [noiseUpper, noiseLower, a1, b1]
  cases m <;> simp [Full.tighten, ballDomain, a2, b3, getIbp, getAffine] <;> exact ⟨rfl, rfl⟩

/-- C127 on an `Lp` ball (`p = 1, 2, inf`), forward conversion in affine or hybrid mode, read with `get_range_noise`. -/
theorem C127_forward_ball (m : Mode) (hm : getAffine m = true) (leps : ℝ) (hl : 0 < leps) (s : Slope) (eps : ℝ) (he : 0 ≤ eps) (q : PVal)
    (hq : q = .inf ∨ q = .fin 1 ∨ q = .fin 2) (z : ι → ℝ) (N : Net ℝ ι κ) (hN : N.WF) (hk : N.Stable (LpBall z eps q)) :
    let out := N.forward (ballDomain eps q) m leps s (inputTensorsBall m eps q z)
    ∃ u l : κ → ℝ, (∀ k, noiseUpper m eps q z out k = .ok (u k) ∧ noiseLower m eps q z out k = .ok (l k)) ∧
      ExactOn m (LpBall z eps q) out (fun p => N.eval p) u l := by
  have h := C127_forward (ballDomain eps q) m hm leps hl s (inputTensorsBall m eps q z) (LpBall z eps q) (ball_input_sound m eps q z)
    (ball_attains eps he q hq z) (ball_pin m hm eps q z).valid (ball_pin m hm eps q z).eq N hN hk
  exact ⟨_, _, fun k => noise_tighten m eps q hq z _ (Net.forward_x ..) k, h⟩

/-- C127 on an `Lp` ball, backward conversion of a chain in affine or hybrid mode. -/
theorem C127_crown_ball [fk : Fintype κ] (m : Mode) (hm : m ≠ .ibp) (leps : ℝ) (hl : 0 < leps) (s : Slope) (uf : Bool)
    (stack : (ι → ℝ) → (ι → ℝ) → ι → ℝ) (eps : ℝ) (he : 0 ≤ eps) (q : PVal) (hq : q = .inf ∨ q = .fin 1 ∨ q = .fin 2) (z : ι → ℝ) (N : Net ℝ ι κ)
    (hc : N.Chain) (hN : N.WF) (hk : N.Stable (LpBall z eps q)) :
    ∃ out, (⟨ballDomain eps q, stack, m, leps, s, uf, inputTensorsBall m eps q z⟩ : CrownCfg (ι → ℝ) ι ℝ).model N = .ok out ∧
      ∃ u l : κ → ℝ, (∀ k, noiseUpper m eps q z out k = .ok (u k) ∧ noiseLower m eps q z out k = .ok (l k)) ∧
        ExactOn m (LpBall z eps q) out (fun p => N.eval p) u l := by
  obtain ⟨⟨r, h1, h2⟩, -⟩ := node_pin (⟨ballDomain eps q, stack, m, leps, s, uf, inputTensorsBall m eps q z⟩ : CrownCfg (ι → ℝ) ι ℝ) hl (LpBall z eps q)
    (ball_input_sound m eps q z) (ball_attains eps he q hq z) (fun h => absurd h hm) (fun h => absurd h hm) (fun h => ball_pin m h eps q z)
    (fun h => absurd h hm) N hc hN hk fk
  obtain ⟨c1, -, c3⟩ := convert_pin (⟨ballDomain eps q, stack, m, leps, s, uf, inputTensorsBall m eps q z⟩ : CrownCfg (ι → ℝ) ι ℝ) (LpBall z eps q)
    (ball_input_sound m eps q z) (ball_attains eps he q hq z) (fun h => absurd h hm) (fun h => absurd h hm) r (fun p => N.eval p) h2
  exact ⟨_, by rw [CrownCfg.model, h1]; rfl, _, _, fun k => noise_tighten m eps q hq z _ (convert_x ..) k,
    c1.exactOn c3 _ _ (fun _ => rfl) fun _ => rfl⟩

end Ball

section Range
variable {n : ℕ} {X α : Type} [Field α] [LinearOrder α] [IsStrictOrderedRing α]

/-- C127: `get_range_box` with sub-boxes is exact as soon as the bounds of every sub-box are. -/
theorem C127_range (net : BoxOf (Fin (n + 1)) α → Full X (Fin (n + 1)) (Fin 1) α) (m : Mode) (F : (Fin (n + 1) → α) → Fin 1 → α)
    (bs : List (BoxOf (Fin (n + 1)) α)) (hb : ∀ b ∈ bs, ∀ i, b.1 i ≤ b.2 i) (nSub batch : ℕ)
    (hx : ∀ b ∈ bs, ∀ c ∈ refineBoxes true nSub b, ExactOn m (Box c.1 c.2) (net c) F (rangeUpper m c (net c)) (rangeLower m c (net c))) :
    ∃ us ls, getRangeBox net m batch nSub bs = .ok (us, ls) ∧ us.length = bs.length ∧ ls.length = bs.length ∧
      ∀ (i : ℕ) (b : BoxOf (Fin (n + 1)) α), bs[i]? = some b → ∃ u l, us[i]? = some u ∧ ls[i]? = some l ∧
        IsGreatest ((fun p => F p 0) '' Box b.1 b.2) u ∧ IsLeast ((fun p => F p 0) '' Box b.1 b.2) l := by
  rw [getRangeBox_one _ _ _ _ _ hb]
  refine ⟨_, _, rfl, by simp, by simp, fun i b hi => ?_⟩
  have hbm := List.mem_of_getElem? hi
  have cov := covers_refine nSub b
  have hne : refineBoxes true nSub b ≠ [] := refineBoxes_ne_nil nSub b
  refine ⟨_, _, by rw [List.getElem?_map, hi]; rfl, by rw [List.getElem?_map, hi]; rfl, ⟨?_, ?_⟩, ?_, ?_⟩
  · obtain ⟨c, hc, e⟩ := List.mem_map.1 (listMax_mem (l := (refineBoxes true nSub b).map fun c => rangeUpper m c (net c) 0) (by simpa using hne))
    obtain ⟨p, hp, ep⟩ := ((hx b hbm c hc).upper 0).1
    exact ⟨p, subBox_box (cov.good (hb b hbm) c hc).2 hp, ep.trans e⟩
  · rintro _ ⟨p, hp, rfl⟩
    obtain ⟨c, hc, hpc⟩ := cov.cover p hp
    exact (((hx b hbm c hc).upper 0).2 ⟨p, hpc, rfl⟩).trans (le_listMax (List.mem_map.2 ⟨c, hc, rfl⟩))
  · obtain ⟨c, hc, e⟩ := List.mem_map.1 (listMin_mem' ((refineBoxes true nSub b).map fun c => rangeLower m c (net c) 0) (by simpa using hne))
    obtain ⟨p, hp, ep⟩ := ((hx b hbm c hc).lower 0).1
    exact ⟨p, subBox_box (cov.good (hb b hbm) c hc).2 hp, ep.trans e⟩
  · rintro _ ⟨p, hp, rfl⟩
    obtain ⟨c, hc, hpc⟩ := cov.cover p hp
    exact (listMin_le (List.mem_map.2 ⟨c, hc, rfl⟩)).trans (((hx b hbm c hc).lower 0).2 ⟨p, hpc, rfl⟩)

/-- C127: `get_adv_box` in affine or hybrid mode is exact as soon as the bounds of every sub-box are: the score is the greatest difference between a
target and a source that the network reaches on the box.  So the score is negative exactly when no adversarial point exists. -/
theorem C127_adv {κ : Type} [Fintype κ] [Nonempty κ] (net : BoxOf (Fin (n + 1)) α → Full X (Fin (n + 1)) κ α) (m : Mode) (hm : getAffine m = true)
    (F : (Fin (n + 1) → α) → κ → α) (r : AdvSample (Fin (n + 1)) κ α) (hb : ∀ i, r.box.1 i ≤ r.box.2 i) (hl : Labels r.src r.tgt) (nSub batch : ℕ)
    (hv : ∀ c ∈ refineBoxes true nSub r.box, ∀ p ∈ Box c.1 c.2, Valid m false (net c) p (F p))
    (hx : ∀ c ∈ refineBoxes true nSub r.box, ExactOn m (Box c.1 c.2) (net c) F (rangeUpper m c (net c)) (rangeLower m c (net c))) :
    ∃ sc, getAdvBox net m batch nSub [r] = .ok [sc] ∧
      IsGreatest {d | ∃ p ∈ Box r.box.1 r.box.2, ∃ t s, r.tgt t = 1 ∧ r.src s = 1 ∧ d = F p t - F p s} sc := by
  have hsub : SoundOn net m F (subBoxes nSub ([r].map AdvSample.box)).1 := by
    intro c hc
    refine hv c ?_
    unfold subBoxes at hc
    split at hc
    · simpa using hc
    · rw [refineBoxes_le_one nSub (by omega)]; simpa using hc
  obtain ⟨scs, h1, h2⟩ := getAdvBox_map net m _ batch nSub [r] Labels (by simpa using hl) (by simpa using (show GoodBox r.box from hb))
    (fun l => advBase_pair _ m hm l)
  obtain ⟨scs', h1', h2'⟩ := C33_adv_box_bounds net m F batch nSub [r] (by simpa using hb) hsub
  rw [h1] at h1'
  cases h1'
  obtain ⟨sc, scs', ⟨grp, g1, e⟩, h3, rfl⟩ := List.forall₂_cons_left_iff.1 h2
  obtain rfl := List.forall₂_nil_left_iff.1 h3
  have hup := (List.forall₂_cons.1 h2').1
  refine ⟨sc, h1, ?_, ?_⟩
  · have hne : grp ≠ [] := by
      intro hn'
      rw [hn'] at g1
      exact refineBoxes_ne_nil nSub r.box (by simpa using g1)
    obtain ⟨c, hc, t, s, ht, hs, hle⟩ := forall₂_right g1 (listMax_mem hne)
    have g := (covers_refine nSub r.box).good hb c hc
    obtain ⟨p, hp, ep⟩ := (box_attains c.1 c.2 g.1 (fun i => (net c).wu i t - (net c).wl i s) ((net c).bu t - (net c).bl s)).1
    have hpr := subBox_box g.2 hp
    have e1 : affinePair c (net c) t s = F p t - F p s := by
      have a := ((hx c hc).aff hm p hp t).1
      have b := ((hx c hc).aff hm p hp s).2
      rw [← a, ← b]
      refine ep.symm.trans ?_
      simp only [affEval, sub_mul, Finset.sum_sub_distrib]
      ring
    refine ⟨p, hpr, t, s, ht, hs, le_antisymm ?_ (hup p hpr t s ht hs)⟩
    rw [e, ← e1]
    exact hle
  · rintro _ ⟨p, hp, t, s, ht, hs, rfl⟩
    exact hup p hp t s ht hs

/-- C127: `get_range_box` on a network converted with forward-affine or forward-hybrid, when no activation switches inside any of the sub-boxes. -/
theorem C127_range_net (m : Mode) (hm : getAffine m = true) (eps : α) (he : 0 < eps) (s : Slope) (N : Net α (Fin (n + 1)) (Fin 1)) (hN : N.WF)
    (bs : List (BoxOf (Fin (n + 1)) α)) (hb : ∀ b ∈ bs, ∀ i, b.1 i ≤ b.2 i) (nSub batch : ℕ)
    (hk : ∀ b ∈ bs, ∀ c ∈ refineBoxes true nSub b, N.Stable (Box c.1 c.2)) :
    ∃ us ls, getRangeBox (N.onBox m eps s) m batch nSub bs = .ok (us, ls) ∧ us.length = bs.length ∧ ls.length = bs.length ∧
      ∀ (i : ℕ) (b : BoxOf (Fin (n + 1)) α), bs[i]? = some b → ∃ u l, us[i]? = some u ∧ ls[i]? = some l ∧
        IsGreatest ((fun p => N.eval p 0) '' Box b.1 b.2) u ∧ IsLeast ((fun p => N.eval p 0) '' Box b.1 b.2) l :=
  C127_range _ m (fun p => N.eval p) bs hb nSub batch fun b hb' c hc =>
    (C127_forward_box m hm eps he s N hN c ((covers_refine nSub b).good (hb b hb') c hc).1 (hk b hb' c hc)).2

/-- C127: `get_adv_box` on such a network is complete: the score is negative exactly when every source beats every target on the whole box. -/
theorem C127_adv_net {κ : Type} [Fintype κ] [Nonempty κ] (m : Mode) (hm : getAffine m = true) (eps : α) (he : 0 < eps) (s : Slope)
    (N : Net α (Fin (n + 1)) κ) (hN : N.WF) (r : AdvSample (Fin (n + 1)) κ α) (hb : ∀ i, r.box.1 i ≤ r.box.2 i) (hl : Labels r.src r.tgt)
    (nSub batch : ℕ) (hk : ∀ c ∈ refineBoxes true nSub r.box, N.Stable (Box c.1 c.2)) :
    ∃ sc, getAdvBox (N.onBox m eps s) m batch nSub [r] = .ok [sc] ∧
      (sc < 0 ↔ ∀ p ∈ Box r.box.1 r.box.2, ∀ t s, r.tgt t = 1 → r.src s = 1 → N.eval p t < N.eval p s) := by
  have h := fun c hc => C127_forward_box m hm eps he s N hN c ((covers_refine nSub r.box).good hb c hc).1 (hk c hc)
  obtain ⟨sc, h1, ⟨p, hp, t, s', ht, hs, e⟩, h3⟩ := C127_adv (N.onBox m eps s) m hm (fun p => N.eval p) r hb hl nSub batch (fun c hc => (h c hc).1)
    fun c hc => (h c hc).2
  refine ⟨sc, h1, fun h p hp t s ht hs => ?_, fun h => ?_⟩
  · have := h3 ⟨p, hp, t, s, ht, hs, rfl⟩
    linarith
  · have := h p hp t s' ht hs
    linarith

end Range

/-- `ReLU(x - x + 1/2)`: the ReLU is always active. -/
def zeroNet : Net ℚ (Fin 1) (Fin 1) :=
  .layer (.layer (.layer .input (.dense (μ := Fin 2) (fun _ _ => 1) fun _ => 0)) (.dense (μ := Fin 1) ![fun _ => 1, fun _ => -1] fun _ => 1 / 2))
    (.relu (fun _ => 1) fun _ => 1)

theorem zeroNet_stable (S : Set (Fin 1 → ℚ)) : zeroNet.Stable S := by
  refine ⟨⟨⟨trivial, trivial⟩, trivial⟩, fun k => .inl ?_⟩
  rintro _ ⟨p, -, rfl⟩
  simp [Net.eval, Lay.eval, Fin.sum_univ_two]

/-- C127 leaves out two methods, for which it is false: on `[0, 1]` the network `zeroNet` is the constant 1/2 and its activation does not switch, but
the upper bounds of forward-ibp and of crown-forward-ibp are 3/2 and 3/4, while the methods of C127 return 1/2. -/
theorem C127_interval_methods :
    let b : BoxOf (Fin 1) ℚ := (fun _ => 0, fun _ => 1)
    zeroNet.Stable (Box b.1 b.2) ∧ (∀ p, zeroNet.eval p 0 = 1 / 2) ∧
    rangeUpper .ibp b (zeroNet.onBox .ibp (1 / 10000000) .vSlope b) 0 = 3 / 2 ∧
    (∃ out, (boxCrown .ibp (1 / 10000000) .vSlope true b.1 b.2).model zeroNet = .ok out ∧ rangeUpper .ibp b out 0 = 3 / 4) ∧
    (∃ out, (boxCrown .ibp (1 / 10000000) .vSlope false b.1 b.2).model zeroNet = .ok out ∧ rangeUpper .ibp b out 0 = 1 / 2) ∧
    rangeUpper .affine b (zeroNet.onBox .affine (1 / 10000000) .vSlope b) 0 = 1 / 2 := by
  refine ⟨zeroNet_stable _, fun p => ?_, by decide +kernel, ⟨_, rfl, by decide +kernel⟩, ⟨_, rfl, by decide +kernel⟩, by decide +kernel⟩
  norm_num [zeroNet, Net.eval, Lay.eval, Fin.sum_univ_two]

/-- `|x|` as `ReLU(x) + ReLU(-x)`, which switches at 0. -/
def absNet : Net ℚ (Fin 1) (Fin 1) :=
  .layer (.layer (.layer .input (.dense (μ := Fin 2) (fun _ => ![1, -1]) fun _ => 0)) (.relu (fun _ => 1) fun _ => 1))
    (.dense (μ := Fin 1) (fun _ _ => 1) fun _ => 0)

theorem absNet_stable (c : BoxOf (Fin 1) ℚ) (h : 0 ≤ c.1 0 ∨ c.2 0 ≤ 0) : absNet.Stable (Box c.1 c.2) := by
  refine ⟨⟨⟨trivial, trivial⟩, fun k => ?_⟩, trivial⟩
  have e : ∀ p : Fin 1 → ℚ, (Net.layer Net.input (Lay.dense (μ := Fin 2) (fun _ => ![1, -1]) fun _ => 0) : Net ℚ (Fin 1) (Fin 2)).eval p =
      ![p 0, - p 0] := fun p => by ext k; fin_cases k <;> simp [Net.eval, Lay.eval]
  have q : ∀ v ∈ (fun p : Fin 1 → ℚ => (Net.layer Net.input (Lay.dense (μ := Fin 2) (fun _ => ![1, -1]) fun _ => 0) : Net ℚ (Fin 1) (Fin 2)).eval p) ''
      Box c.1 c.2, v 1 = - v 0 ∧ c.1 0 ≤ v 0 ∧ v 0 ≤ c.2 0 := by
    rintro _ ⟨p, hp, rfl⟩
    dsimp only
    rw [e]
    exact ⟨rfl, (hp 0).1, (hp 0).2⟩
  fin_cases k
  · exact h.imp (fun h v hv => h.trans (q v hv).2.1) fun h v hv => (q v hv).2.2.trans h
  · refine h.symm.imp (fun h v hv => ?_) fun h v hv => ?_
    · have := q v hv; simp only [Fin.mk_one, this.1]; linarith
    · have := q v hv; simp only [Fin.mk_one, this.1]; linarith

theorem absNet_wf : absNet.WF := ⟨⟨⟨trivial, trivial⟩, fun _ => by norm_num⟩, trivial⟩

/-- The theorems of C127 for `|x|` on `[0, 2]`, where the activations are stable. -/
example (m : Mode) (hm : getAffine m = true) (p : Fin 1 → ℚ) (hp : p ∈ Box (fun _ => 0) fun _ => 2) :
    Valid m false (absNet.onBox m 1 .vSlope (fun _ => 0, fun _ => 2)) p (absNet.eval p) :=
  (C127_forward_box m hm 1 one_pos .vSlope absNet absNet_wf (fun _ => 0, fun _ => 2) (fun _ => by norm_num) (absNet_stable _ (.inl le_rfl))).1 p hp

example (m : Mode) (M : Fin 1 → Fin 2 → ℚ) : (∃ out, (boxCrown m 1 .vSlope false (fun _ => 0) (fun _ => 2)).model absNet = .ok out ∧
      ExactOn m (Box (fun _ => 0) fun _ => 2) out (fun p => absNet.eval p) (rangeUpper m (fun _ => 0, fun _ => 2) out) (rangeLower m (fun _ => 0, fun _ => 2) out)) ∧
    ∃ out, (boxCrown m 1 .vSlope false (fun _ => 0) (fun _ => 2)).modelBack absNet M = .ok out ∧
      ExactOn m (Box (fun _ => 0) fun _ => 2) out (fun p j => ∑ k, M k j * absNet.eval p k) (rangeUpper m (fun _ => 0, fun _ => 2) out)
        (rangeLower m (fun _ => 0, fun _ => 2) out) := by
  have c : absNet.Chain := trivial
  have s := absNet_stable (fun _ => 0, fun _ => 2) (.inl le_rfl)
  obtain ⟨out, h, -, h'⟩ := C127_crown_box m false (fun _ => rfl) 1 one_pos .vSlope absNet c absNet_wf (fun _ => 0, fun _ => 2) (fun _ => by norm_num) s
  exact ⟨⟨out, h, h'⟩, C127_back_box m false (fun _ => rfl) 1 one_pos .vSlope absNet c absNet_wf M (fun _ => 0, fun _ => 2) (fun _ => by norm_num) s⟩

/-- On balls, a layer without activation: `x0 - x1` is bounded exactly by every method in affine form. -/
example (q : PVal) (hq : q = .inf ∨ q = .fin 1 ∨ q = .fin 2) :
    let N : Net ℝ (Fin 2) (Fin 1) := .layer .input (.dense (μ := Fin 1) ![fun _ => 1, fun _ => -1] fun _ => 0)
    ∃ out, (⟨ballDomain 1 q, fun _ u => u, .affine, 1, .vSlope, false, inputTensorsBall .affine 1 q fun _ => 0⟩ : CrownCfg (Fin 2 → ℝ) (Fin 2) ℝ).model N = .ok out ∧
      ∃ u l : Fin 1 → ℝ, (∀ k, noiseUpper .affine 1 q (fun _ => 0) out k = .ok (u k) ∧ noiseLower .affine 1 q (fun _ => 0) out k = .ok (l k)) ∧
        ExactOn .affine (LpBall (fun _ => 0) 1 q) out (fun p => N.eval p) u l := by
  intro N
  exact C127_crown_ball .affine (by decide) 1 one_pos .vSlope false _ 1 zero_le_one q hq _ N trivial ⟨trivial, trivial⟩ ⟨trivial, trivial⟩

example (m : Mode) (hm : getAffine m = true) : ∃ u : Fin 2 → ℝ,
    ∀ k, noiseUpper m 1 (.fin 1) (fun _ => 0) ((Net.input : Net ℝ (Fin 2) (Fin 2)).forward (ballDomain 1 (.fin 1)) m 1 .vSlope (inputTensorsBall m 1 (.fin 1) fun _ => 0)) k = .ok (u k) := by
  obtain ⟨u, l, h, -⟩ := C127_forward_ball m hm 1 one_pos .vSlope 1 zero_le_one (.fin 1) (.inr (.inl rfl)) (fun _ => 0) (Net.input : Net ℝ (Fin 2) (Fin 2)) trivial trivial
  exact ⟨u, fun k => (h k).1⟩

/-- Non-vacuity of C127: on `[-1, 3]` the bounds of `absNet` are not exact with one box, and they are with four sub-boxes, since 0 is then a corner. -/
example :
    getRangeBox (absNet.onBox .affine (1 / 10000000) .vSlope) .affine 0 1 [(fun _ => -1, fun _ => 3)] = .ok ([3], [-1]) ∧
    getRangeBox (absNet.onBox .affine (1 / 10000000) .vSlope) .affine 0 4 [(fun _ => -1, fun _ => 3)] = .ok ([3], [0]) ∧
    (∀ c ∈ refineBoxes true 4 ((fun _ => -1, fun _ => 3) : BoxOf (Fin 1) ℚ), absNet.Stable (Box c.1 c.2)) ∧
    ∃ us ls, getRangeBox (absNet.onBox .affine (1 / 10000000) .vSlope) .affine 0 4 [(fun _ => -1, fun _ => 3)] = .ok (us, ls) ∧
      ∃ u l, us[0]? = some u ∧ ls[0]? = some l ∧
        IsGreatest ((fun p => absNet.eval p 0) '' Box (fun _ => -1) fun _ => 3) u ∧ IsLeast ((fun p => absNet.eval p 0) '' Box (fun _ => -1) fun _ => 3) l := by
  have hst : ∀ c ∈ refineBoxes true 4 ((fun _ => -1, fun _ => 3) : BoxOf (Fin 1) ℚ), absNet.Stable (Box c.1 c.2) := fun c hc =>
    absNet_stable c ((by decide +kernel : ∀ c ∈ refineBoxes true 4 ((fun _ => -1, fun _ => 3) : BoxOf (Fin 1) ℚ), 0 ≤ c.1 0 ∨ c.2 0 ≤ 0) c hc)
  refine ⟨by decide +kernel, by decide +kernel, hst, ?_⟩
  obtain ⟨us, ls, h1, -, -, h⟩ := C127_range_net .affine rfl (1 / 10000000) (by norm_num) .vSlope absNet
    ⟨⟨⟨trivial, trivial⟩, fun _ => ⟨⟨zero_le_one, le_rfl⟩, zero_le_one, le_rfl⟩⟩, trivial⟩ [(fun _ => -1, fun _ => 3)] (by simp; norm_num) 4 0 (by simpa using hst)
  exact ⟨us, ls, h1, h 0 _ rfl⟩

/-- Non-vacuity of `C127_adv_net`: with two classes `ReLU(x), ReLU(-x) + 1/2` on `[0, 1]`, the class 0 does not win; the score is 1/2, reached at 0. -/
example :
    let N : Net ℚ (Fin 1) (Fin 2) := .layer (.layer .input (.dense (μ := Fin 2) (fun _ => ![1, -1]) fun _ => 0)) (.relu (fun _ => 1) fun _ => 1)
    let M : Net ℚ (Fin 1) (Fin 2) := .layer N (.dense (μ := Fin 2) ![![1, 0], ![0, 1]] ![0, 1 / 2])
    getAdvBox (M.onBox .affine (1 / 10000000) .vSlope) .affine 0 1 [⟨(fun _ => 0, fun _ => 1), ![1, 0], ![0, 1]⟩] = .ok [1 / 2] ∧
    M.eval (fun _ => 0) 1 - M.eval (fun _ => 0) 0 = 1 / 2 := by
  exact ⟨by decide +kernel, by decide +kernel⟩

end Decomon
