import Verif.Lemmas.Spread
import Verif.Props.Slack
import Verif.Props.Order

/-! Theorems about the width of the bounds of every method (C125). -/

namespace Decomon

section Generic
variable {X ι κ α : Type} [Fintype ι] [DecidableEq ι] [Field α] [LinearOrder α] [IsStrictOrderedRing α]

/-- C125, forward conversion in affine or hybrid mode: on a domain whose points stay in a box of widths `w`, the concretised affine bounds of a
network without `Multiply` are at most `N.spread w` wide.  `spread` is the number of C111, read off the weights, so the affine bounds have
the same guarantee as the interval bounds.  No hypothesis on the slivers is needed. -/
theorem C125_forward (D : PertDomain X ι α) (m : Mode) (hm : getAffine m = true) (eps : α) (he : 0 < eps) (s : Slope) (inp : Full X ι ι α)
    (S : Set (ι → α)) (hD : Attains D inp.x S) (hin : ∀ p ∈ S, ∀ i, affEval (fun j => inp.wl j i) (inp.bl i) p = p i ∧
      affEval (fun j => inp.wu j i) (inp.bu i) p = p i)
    (lo up w : ι → α) (hS : ∀ p ∈ S, ∀ i, lo i ≤ p i ∧ p i ≤ up i) (hw : ∀ i, up i - lo i ≤ w i)
    (N : Net α ι κ) (hN : N.WF) (hmul : N.NoMultiply) (k : κ) :
    let out := N.forward D m eps s inp
    D.getUpper out.x (fun i => out.wu i k) (out.bu k) - D.getLower out.x (fun i => out.wl i k) (out.bl k) ≤ N.spread w k := by
  intro out
  obtain ⟨p0, hp0, -⟩ := (hD 0 0).1
  have hne : m ≠ .ibp := by rintro rfl; exact absurd hm (by decide)
  obtain ⟨u, l, -, h2, h3⟩ := net_held (m := m) D hm eps he s inp hD up lo w (fun i => (hS p0 hp0 i).1.trans (hS p0 hp0 i).2) hw
    ⟨fun h => absurd h hne, fun _ p hp i => ⟨(hS p hp i).1.trans (hin p hp i).1.ge, (hin p hp i).2.le.trans (hS p hp i).2⟩⟩ N hN hmul
  have := h3.conc D out.x (by rw [Net.forward_x]; exact hD) hm k
  have := h2 k
  linarith

end Generic

section Box
variable {ι κ ν α : Type} [Fintype ι] [DecidableEq ι] [Field α] [LinearOrder α] [IsStrictOrderedRing α]

theorem box_attains (xmin xmax : ι → α) (h : ∀ i, xmin i ≤ xmax i) : Attains (boxDomain : PertDomain _ ι α) (xmin, xmax) (Box xmin xmax) := by
  intro w b
  obtain ⟨⟨p, hp, -, e⟩, q, hq, -, e'⟩ := (C01_box_sound_and_exact xmin xmax w b).2 h
  exact ⟨⟨p, hp, e⟩, q, hq, e'⟩

theorem box_held (m : Mode) (xmin xmax : ι → α) : Held m (Box xmin xmax) (inputTensorsBox m xmin xmax) xmax xmin := by
  refine ⟨fun hm k => ?_, fun hm p hp k => ?_⟩
  · subst hm; exact ⟨le_rfl, le_rfl⟩
  · simpa [Full.toBack, Back.evalU, Back.evalL, inputTensorsBox, hm, affEval] using hp k

/-- The constant bounds that the user reads off. -/
theorem held_range {κ : Type} {m : Mode} {b : BoxOf ι α} {f : Full ((ι → α) × (ι → α)) ι κ α} {u l : κ → α}
    (h : Held m (Box b.1 b.2) f u l) (hb : ∀ i, b.1 i ≤ b.2 i) (k : κ) : l k ≤ rangeLower m b f k ∧ rangeUpper m b f k ≤ u k := by
  cases m with
  | ibp => exact h.const rfl k
  | affine => exact h.conc boxDomain b (box_attains b.1 b.2 hb) rfl k
  | hybrid =>
    have := h.conc boxDomain b (box_attains b.1 b.2 hb) rfl k
    exact ⟨le_max_of_le_right this.1, min_le_of_right_le this.2⟩

/-- C125 on a box, forward conversion, every mode: the bounds that `get_range_box` reads are at most `N.spread w` wide. -/
theorem C125_forward_box (m : Mode) (eps : α) (he : 0 < eps) (s : Slope) (N : Net α ι κ) (hN : N.WF) (hmul : N.NoMultiply) (b : BoxOf ι α)
    (hb : ∀ i, b.1 i ≤ b.2 i) (w : ι → α) (hw : ∀ i, b.2 i - b.1 i ≤ w i) (k : κ) :
    rangeUpper m b (N.onBox m eps s b) k - rangeLower m b (N.onBox m eps s b) k ≤ N.spread w k := by
  by_cases hm : getAffine m = true
  · obtain ⟨u, l, -, h2, h3⟩ := net_held (m := m) boxDomain hm eps he s (inputTensorsBox m b.1 b.2) (box_attains b.1 b.2 hb) b.2 b.1 w hb hw
      (box_held m b.1 b.2) N hN hmul
    have := held_range h3 hb k
    have := h2 k
    unfold Net.onBox
    linarith
  · obtain rfl : m = .ibp := by cases m <;> first | rfl | exact absurd rfl hm
    exact C111_width eps s N hN hmul b w (fun i => (sub_nonneg.2 (hb i)).trans (hw i)) hw k

/-- C125 on a box, backward conversion, every mode, with (`crown-forward-*`) or without (`crown`) a forward pass: the bounds of a chain are at
most `N.spread w` wide too. -/
theorem C125_crown_box [Fintype κ] (m : Mode) (eps : α) (he : 0 < eps) (s : Slope) (uf : Bool) (N : Net α ι κ) (hc : N.Chain) (hN : N.WF)
    (b : BoxOf ι α) (hb : ∀ i, b.1 i ≤ b.2 i) (w : ι → α) (hw : ∀ i, b.2 i - b.1 i ≤ w i) :
    ∃ out, (boxCrown m eps s uf b.1 b.2).model N = .ok out ∧ ∀ k, rangeUpper m b out k - rangeLower m b out k ≤ N.spread w k := by
  obtain ⟨out, h1, u, l, h2, h3⟩ := model_held (boxCrown m eps s uf b.1 b.2) he (Box b.1 b.2) (box_attains b.1 b.2 hb) (boxDomain_sound b.1 b.2)
    (fun h => by
      have h : m = .ibp := h
      subst h
      simpa [boxCrown, inputTensorsBox, getIbp] using box_attains b.1 b.2 hb)
    (fun p hp => C27_input_box m b.1 b.2 p hp) b.2 b.1 w (fun p hp => hp) hw (box_held m b.1 b.2) N hc hN
  refine ⟨out, h1, fun k => ?_⟩
  have h3 : Held m (Box b.1 b.2) out u l := h3
  have := held_range h3 hb k
  have := h2 k
  linarith

/-- C125 with `back_bounds = [C]`: the bounds of column `j` of `y · C` are at most the spread of the outputs weighted by `|C|` wide. -/
theorem C125_back_bounds [Fintype κ] (m : Mode) (eps : α) (he : 0 < eps) (s : Slope) (uf : Bool) (N : Net α ι κ) (hc : N.Chain) (hN : N.WF)
    (C : κ → ν → α) (b : BoxOf ι α) (hb : ∀ i, b.1 i ≤ b.2 i) (w : ι → α) (hw : ∀ i, b.2 i - b.1 i ≤ w i) :
    ∃ out, (boxCrown m eps s uf b.1 b.2).modelBack N C = .ok out ∧
      ∀ j, rangeUpper m b out j - rangeLower m b out j ≤ ∑ k, |C k j| * N.spread w k := by
  obtain ⟨out, h1, u, l, h2, h3⟩ := modelBack_held (boxCrown m eps s uf b.1 b.2) he (Box b.1 b.2) (box_attains b.1 b.2 hb)
    (boxDomain_sound b.1 b.2)
    (fun h => by
      have h : m = .ibp := h
      subst h
      simpa [boxCrown, inputTensorsBox, getIbp] using box_attains b.1 b.2 hb)
    (fun p hp => C27_input_box m b.1 b.2 p hp) b.2 b.1 w (fun p hp => hp) hw (box_held m b.1 b.2) N hc hN C
  refine ⟨out, h1, fun k => ?_⟩
  have h3 : Held m (Box b.1 b.2) out u l := h3
  have := held_range h3 hb k
  have := h2 k
  linarith

end Box

section Range
variable {n : ℕ} {α : Type} [Field α] [LinearOrder α] [IsStrictOrderedRing α]

theorem listMin_mem' : ∀ l : List α, l ≠ [] → listMin l ∈ l
  | [], h => absurd rfl h
  | a :: t, _ => by
    have key : ∀ (t : List α) (a : α), t.foldl min a ∈ a :: t := by
      intro t
      induction t with
      | nil => simp
      | cons x t ih =>
        intro a
        rw [List.foldl_cons]
        rcases List.mem_cons.1 (ih (min a x)) with h | h
        · rw [h]; rcases min_choice a x with h | h <;> simp [h]
        · simp [h]
    exact key t a

/-- Sub-boxes on which the bounds hold up to `e` and are narrower than `d` give a range that is within `d + e` of the exact one. -/
theorem range_near {X : Type} (net : BoxOf (Fin (n + 1)) α → Full X (Fin (n + 1)) (Fin 1) α) (m : Mode) (f : (Fin (n + 1) → α) → α) (e d : α)
    (val : ∀ c : BoxOf (Fin (n + 1)) α, ∀ p ∈ Box c.1 c.2, rangeLower m c (net c) 0 - e ≤ f p ∧ f p ≤ rangeUpper m c (net c) 0 + e)
    (bs : List (BoxOf (Fin (n + 1)) α)) (hb : ∀ b ∈ bs, ∀ i, b.1 i ≤ b.2 i) (nSub : ℕ)
    (hK : ∀ b ∈ bs, ∀ c ∈ refineBoxes true nSub b, rangeUpper m c (net c) 0 - rangeLower m c (net c) 0 ≤ d) (batch : ℕ) :
    ∃ us ls, getRangeBox net m batch nSub bs = .ok (us, ls) ∧
      us.length = bs.length ∧ ls.length = bs.length ∧
      ∀ (i : ℕ) (b : BoxOf (Fin (n + 1)) α), bs[i]? = some b → ∃ u l, us[i]? = some u ∧ ls[i]? = some l ∧
        (∀ p ∈ Box b.1 b.2, l - e ≤ f p ∧ f p ≤ u + e) ∧
        (∃ p ∈ Box b.1 b.2, u ≤ f p + (d + e)) ∧ ∃ p ∈ Box b.1 b.2, f p - (d + e) ≤ l := by
  rw [getRangeBox_one _ _ _ _ _ hb]
  refine ⟨_, _, rfl, by simp, by simp, fun i b hi => ?_⟩
  have hbm := List.mem_of_getElem? hi
  have cov := covers_refine nSub b
  have hne : refineBoxes true nSub b ≠ [] := refineBoxes_ne_nil nSub b
  refine ⟨_, _, by rw [List.getElem?_map, hi]; rfl, by rw [List.getElem?_map, hi]; rfl, fun p hp => ?_, ?_, ?_⟩
  · obtain ⟨c, hc, hpc⟩ := cov.cover p hp
    have a := val c p hpc
    have a1 := listMin_le (List.mem_map.2 ⟨c, hc, rfl⟩ : rangeLower m c (net c) 0 ∈ (refineBoxes true nSub b).map fun c => rangeLower m c (net c) 0)
    have a2 := le_listMax (List.mem_map.2 ⟨c, hc, rfl⟩ : rangeUpper m c (net c) 0 ∈ (refineBoxes true nSub b).map fun c => rangeUpper m c (net c) 0)
    dsimp only
    constructor <;> linarith
  · obtain ⟨c, hc, e'⟩ := List.mem_map.1 (listMax_mem (l := (refineBoxes true nSub b).map fun c => rangeUpper m c (net c) 0) (by simpa using hne))
    have g := cov.good (hb b hbm) c hc
    have hc1 : c.1 ∈ Box c.1 c.2 := fun j => ⟨le_rfl, g.1 j⟩
    refine ⟨c.1, subBox_box g.2 hc1, ?_⟩
    dsimp only
    rw [← e']
    have h1 := hK b hbm c hc
    have h2 := (val c c.1 hc1).1
    linarith
  · obtain ⟨c, hc, e'⟩ := List.mem_map.1 (listMin_mem' ((refineBoxes true nSub b).map fun c => rangeLower m c (net c) 0) (by simpa using hne))
    have g := cov.good (hb b hbm) c hc
    have hc1 : c.1 ∈ Box c.1 c.2 := fun j => ⟨le_rfl, g.1 j⟩
    refine ⟨c.1, subBox_box g.2 hc1, ?_⟩
    dsimp only
    rw [← e']
    have h1 := hK b hbm c hc
    have h2 := (val c c.1 hc1).2
    linarith

theorem near_range {ι κ : Type} [Fintype ι] {m : Mode} {b : BoxOf ι α} {f : Full ((ι → α) × (ι → α)) ι κ α} {p : ι → α} (hp : p ∈ Box b.1 b.2)
    {y e : κ → α} (h : Near m f p y e) (k : κ) : rangeLower m b f k - e k ≤ y k ∧ y k ≤ rangeUpper m b f k + e k := by
  have s1 := fun w d => getUpperBox_sound (xmin := b.1) (xmax := b.2) hp w d
  have s2 := fun w d => getLowerBox_sound (xmin := b.1) (xmax := b.2) hp w d
  cases m with
  | ibp => exact h.const rfl k
  | affine =>
    have a := h.aff rfl k
    have := s1 (fun i => f.wu i k) (f.bu k)
    have := s2 (fun i => f.wl i k) (f.bl k)
    simp only [rangeLower, rangeUpper]
    constructor <;> linarith
  | hybrid =>
    have a := h.aff rfl k
    have a' := h.const rfl k
    have := s1 (fun i => f.wu i k) (f.bu k)
    have := s2 (fun i => f.wl i k) (f.bl k)
    simp only [rangeLower, rangeUpper]
    constructor
    · rw [sub_le_iff_le_add]; exact max_le (by linarith) (by linarith)
    · rw [← sub_le_iff_le_add]; exact le_min (by linarith) (by linarith)

/-- C125: refining the box works for every forward method: with `2 ^ (j * n)` sub-boxes or more, both bounds of `get_range_box` are within
`spread * W / 2 ^ j` of a value of the model, up to the error of the affine bounds (C104: at most `eps` times the gain of the network). -/
theorem C125_range (m : Mode) (eps : α) (he : 0 < eps) (s : Slope) (N : Net α (Fin (n + 1)) (Fin 1)) (hN : N.WF) (hmul : N.NoMultiply)
    (bs : List (BoxOf (Fin (n + 1)) α)) (hb : ∀ b ∈ bs, ∀ i, b.1 i ≤ b.2 i) (W : α) (hW : ∀ b ∈ bs, ∀ i, b.2 i - b.1 i ≤ W)
    (j nSub : ℕ) (hn : 2 ^ (j * (n + 1)) ≤ nSub) (batch : ℕ) :
    ∃ us ls, getRangeBox (N.onBox m eps s) m batch nSub bs = .ok (us, ls) ∧
      us.length = bs.length ∧ ls.length = bs.length ∧
      ∀ (i : ℕ) (b : BoxOf (Fin (n + 1)) α), bs[i]? = some b → ∃ u l, us[i]? = some u ∧ ls[i]? = some l ∧
        (∀ p ∈ Box b.1 b.2, l - eps * N.gain 0 ≤ N.eval p 0 ∧ N.eval p 0 ≤ u + eps * N.gain 0) ∧
        (∃ p ∈ Box b.1 b.2, u ≤ N.eval p 0 + (N.spread (fun _ => 1) 0 * (W / 2 ^ j) + eps * N.gain 0)) ∧
        ∃ p ∈ Box b.1 b.2, N.eval p 0 - (N.spread (fun _ => 1) 0 * (W / 2 ^ j) + eps * N.gain 0) ≤ l :=
  range_near (N.onBox m eps s) m (fun p => N.eval p 0) _ _
    (fun c p hp => near_range hp (C104_box m eps he s c.1 c.2 N hN hmul p hp) 0) bs hb nSub
    (fun b hb' c hc => by
      rw [← N.spread_const]
      exact C125_forward_box m eps he s N hN hmul c ((covers_refine nSub b).good (hb b hb') c hc).1 _
        (C35_widths j nSub hn b (hb b hb') W (hW b hb') c hc) 0) batch

/-- C125: the same for a model converted with a backward method. -/
theorem C125_range_crown (m : Mode) (eps : α) (he : 0 < eps) (s : Slope) (uf : Bool) (N : Net α (Fin (n + 1)) (Fin 1)) (hc : N.Chain) (hN : N.WF)
    (bs : List (BoxOf (Fin (n + 1)) α)) (hb : ∀ b ∈ bs, ∀ i, b.1 i ≤ b.2 i) (W : α) (hW : ∀ b ∈ bs, ∀ i, b.2 i - b.1 i ≤ W)
    (j nSub : ℕ) (hn : 2 ^ (j * (n + 1)) ≤ nSub) (batch : ℕ)
    (net : BoxOf (Fin (n + 1)) α → Full ((Fin (n + 1) → α) × (Fin (n + 1) → α)) (Fin (n + 1)) (Fin 1) α)
    (hnet : ∀ c, (boxCrown m eps s uf c.1 c.2).model N = .ok (net c)) :
    ∃ us ls, getRangeBox net m batch nSub bs = .ok (us, ls) ∧
      us.length = bs.length ∧ ls.length = bs.length ∧
      ∀ (i : ℕ) (b : BoxOf (Fin (n + 1)) α), bs[i]? = some b → ∃ u l, us[i]? = some u ∧ ls[i]? = some l ∧
        (∀ p ∈ Box b.1 b.2, l - eps * N.gain 0 ≤ N.eval p 0 ∧ N.eval p 0 ≤ u + eps * N.gain 0) ∧
        (∃ p ∈ Box b.1 b.2, u ≤ N.eval p 0 + (N.spread (fun _ => 1) 0 * (W / 2 ^ j) + eps * N.gain 0)) ∧
        ∃ p ∈ Box b.1 b.2, N.eval p 0 - (N.spread (fun _ => 1) 0 * (W / 2 ^ j) + eps * N.gain 0) ≤ l :=
  range_near net m (fun p => N.eval p 0) _ _
    (fun c p hp => by
      obtain ⟨out, h1, h2⟩ := C105_box m eps he s uf c.1 c.2 N hc hN p hp
      rw [hnet] at h1
      cases h1
      exact near_range hp h2 0) bs hb nSub
    (fun b hb' c hc' => by
      rw [← N.spread_const]
      obtain ⟨out, h1, h2⟩ := C125_crown_box m eps he s uf N hc hN c ((covers_refine nSub b).good (hb b hb') c hc').1 _
        (C35_widths j nSub hn b (hb b hb') W (hW b hb') c hc')
      rw [hnet] at h1
      cases h1
      exact h2 0) batch

/-- The scores of `get_adv_box` in affine and hybrid mode are at most the bound of a (target, source) pair. -/
theorem advBase_pair {ι X : Type*} {κ : Type} [Fintype ι] [Fintype κ] [Nonempty κ] (net : BoxOf ι α → Full X ι κ α) (m : Mode) (hm : getAffine m = true)
    (l : List (AdvSample ι κ α)) (h : ∀ r ∈ l, GoodBox r.box ∧ Labels r.src r.tgt) :
    ∃ scs, advBase net m l = .ok scs ∧
      List.Forall₂ (fun (r : AdvSample ι κ α) sc => ∃ t s, r.tgt t = 1 ∧ r.src s = 1 ∧ sc ≤ affinePair r.box (net r.box) t s) l scs := by
  have hgood : badBoxes (l.map AdvSample.box) = false :=
    (not_bad_iff _).2 (fun b hb' => by obtain ⟨r, hr, rfl⟩ := List.mem_map.1 hb'; exact (h r hr).1)
  have aff : List.Forall₂ (fun (r : AdvSample ι κ α) sc => ∃ t s, r.tgt t = 1 ∧ r.src s = 1 ∧ sc ≤ affinePair r.box (net r.box) t s) l
      (maskedScores (l.map fun r => (affinePair r.box (net r.box), r.src, r.tgt))) := by
    have := C33_mask_exact (l.map fun r => (affinePair r.box (net r.box), r.src, r.tgt))
    rw [List.forall₂_map_left_iff] at this
    rw [List.forall₂_iff_get] at this ⊢
    refine ⟨this.1, fun i h1 h2 => ?_⟩
    obtain ⟨z1, z2, ⟨t, ht⟩, s, hs⟩ := (h _ (List.get_mem l ⟨i, h1⟩)).2
    obtain ⟨t', s', ht', hs', e⟩ := ((this.2 i h1 h2).2 z1 z2 ⟨_, t, s, ht, hs, rfl⟩).1
    exact ⟨t', s', ht', hs', e.le⟩
  unfold advBase
  rw [hgood]
  cases m with
  | ibp => exact absurd hm (by decide)
  | affine => exact ⟨_, rfl, aff⟩
  | hybrid =>
    refine ⟨_, rfl, ?_⟩
    have hlen := (C33_mask_exact (l.map fun r => (ibpPair (net r.box), r.src, r.tgt))).length_eq
    rw [List.length_map] at hlen
    rw [List.forall₂_iff_get] at aff ⊢
    refine ⟨by rw [List.length_zipWith, ← hlen, ← aff.1, min_self], fun i h1 h2 => ?_⟩
    obtain ⟨t, s, ht, hs, hle⟩ := aff.2 i h1 (by rw [← aff.1]; exact h1)
    refine ⟨t, s, ht, hs, le_trans ?_ hle⟩
    simp only [List.get_eq_getElem, List.getElem_zipWith]
    exact min_le_right _ _

/-- C125: the number of sub-boxes that suffices for `get_adv_box` to certify a sample with a forward method: if every source beats every target
by more than `2 * (S * W / 2 ^ j + eps * G)` on the box, where `S` bounds the spread and `G` the gain of every output, then `2 ^ (j * n)`
sub-boxes give a negative score. -/
theorem C125_adv {κ : Type} [Fintype κ] [Nonempty κ] (m : Mode) (hm : getAffine m = true) (eps : α) (he : 0 < eps) (s : Slope)
    (N : Net α (Fin (n + 1)) κ) (hN : N.WF) (hmul : N.NoMultiply)
    (r : AdvSample (Fin (n + 1)) κ α) (hb : ∀ i, r.box.1 i ≤ r.box.2 i) (hl : Labels r.src r.tgt) (W : α) (hW : ∀ i, r.box.2 i - r.box.1 i ≤ W)
    (S G : α) (hS : ∀ k, N.spread (fun _ => 1) k ≤ S) (hG : ∀ k, N.gain k ≤ G) (j nSub : ℕ) (hn : 2 ^ (j * (n + 1)) ≤ nSub)
    (hrob : ∀ p ∈ Box r.box.1 r.box.2, ∀ t s, r.tgt t = 1 → r.src s = 1 → N.eval p t + 2 * (S * (W / 2 ^ j) + eps * G) < N.eval p s) (batch : ℕ) :
    ∃ sc, getAdvBox (N.onBox m eps s) m batch nSub [r] = .ok [sc] ∧ sc < 0 := by
  have hW0 : 0 ≤ W := (sub_nonneg.2 (hb 0)).trans (hW 0)
  obtain ⟨scs, h1, h2⟩ := getAdvBox_map (N.onBox m eps s) m _ batch nSub [r] Labels (by simpa using hl)
    (by simpa using (show GoodBox r.box from hb)) (fun l => advBase_pair _ m hm l)
  obtain ⟨sc, scs', ⟨grp, g1, e⟩, h3, rfl⟩ := List.forall₂_cons_left_iff.1 h2
  obtain rfl := List.forall₂_nil_left_iff.1 h3
  refine ⟨sc, h1, ?_⟩
  have hne : grp ≠ [] := by
    intro hn'
    rw [hn'] at g1
    exact refineBoxes_ne_nil nSub r.box (by simpa using g1)
  obtain ⟨c, hc, t, s', ht, hs', hle⟩ := forall₂_right g1 (listMax_mem hne)
  have g := (covers_refine nSub r.box).good hb c hc
  have hc1 : c.1 ∈ Box c.1 c.2 := fun j => ⟨le_rfl, g.1 j⟩
  obtain ⟨u, l, -, k2, k3⟩ := net_held (m := m) boxDomain hm eps he s (inputTensorsBox m c.1 c.2) (box_attains c.1 c.2 g.1) c.2 c.1 _ g.1
    (C35_widths j nSub hn r.box hb W hW c hc) (box_held m c.1 c.2) N hN hmul
  obtain ⟨p, hp, ep⟩ := (box_attains c.1 c.2 g.1 (fun i => (N.onBox m eps s c).wu i t - (N.onBox m eps s c).wl i s')
    ((N.onBox m eps s c).bu t - (N.onBox m eps s c).bl s')).1
  have hpair : affinePair c (N.onBox m eps s c) t s' ≤ u t - l s' := by
    have e1 : affinePair c (N.onBox m eps s c) t s' = affEval (fun i => (N.onBox m eps s c).wu i t) ((N.onBox m eps s c).bu t) p -
        affEval (fun i => (N.onBox m eps s c).wl i s') ((N.onBox m eps s c).bl s') p := by
      refine ep.symm.trans ?_
      simp only [affEval, sub_mul, mul_sub, Finset.sum_sub_distrib]
      ring
    rw [e1]
    exact sub_le_sub (k3.aff hm p hp t).2 (k3.aff hm p hp s').1
  have near := fun k => (C104_box m eps he s c.1 c.2 N hN hmul p hp).aff hm k
  have w : ∀ k, u k - l k ≤ S * (W / 2 ^ j) := fun k => (k2 k).trans (by
    rw [N.spread_const]
    exact mul_le_mul_of_nonneg_right (hS k) (by positivity))
  have a1 : l t - eps * G ≤ N.eval p t := by
    have q1 : l t ≤ _ := (k3.aff hm p hp t).1
    have q2 := (near t).1
    have q3 := mul_le_mul_of_nonneg_left (hG t) he.le
    simp only [Full.toBack, Back.evalL] at q1
    linarith
  have a2 : N.eval p s' ≤ u s' + eps * G := by
    have q1 : _ ≤ u s' := (k3.aff hm p hp s').2
    have q2 := (near s').2
    have q3 := mul_le_mul_of_nonneg_left (hG s') he.le
    simp only [Full.toBack, Back.evalU] at q1
    linarith
  have hr := hrob p (subBox_box g.2 hp) t s' ht hs'
  have w1 := w t
  have w2 := w s'
  rw [e]
  linarith

end Range

section Ball
variable {ι κ : Type} [Fintype ι] [DecidableEq ι] [Nonempty ι]

theorem ball_attains (eps : ℝ) (he : 0 ≤ eps) (q : PVal) (hq : q = .inf ∨ q = .fin 1 ∨ q = .fin 2) (z : ι → ℝ) :
    Attains (ballDomain eps q) z (LpBall z eps q) := by
  intro w b
  obtain ⟨u, l, h1, h2, -, h3, h4⟩ := C02_ball_sound_and_exact z w eps b he q hq
  simp only [ballDomain, h1, h2]
  exact ⟨h3, h4⟩

theorem ball_coord (eps : ℝ) (q : PVal) (z p : ι → ℝ) (hp : p ∈ LpBall z eps q) (i : ι) : z i - eps ≤ p i ∧ p i ≤ z i + eps := by
  have key : |p i - z i| ≤ eps → z i - eps ≤ p i ∧ p i ≤ z i + eps := fun h => by
    have := abs_le.1 h
    constructor <;> linarith
  apply key
  rcases hp with ⟨-, h⟩ | ⟨-, h⟩ | ⟨-, h0, h⟩
  · exact h i
  · exact (Finset.single_le_sum (f := fun i => |p i - z i|) (fun i _ => abs_nonneg _) (Finset.mem_univ i)).trans h
  · refine abs_le_of_sq_le_sq ?_ h0
    exact (Finset.single_le_sum (f := fun i => (p i - z i) ^ 2) (fun i _ => sq_nonneg _) (Finset.mem_univ i)).trans h

theorem ball_held (m : Mode) (hm : m ≠ .ibp) (eps : ℝ) (q : PVal) (z : ι → ℝ) :
    Held m (LpBall z eps q) (inputTensorsBall m eps q z) (fun i => z i + eps) (fun i => z i - eps) := by
  refine ⟨fun h => absurd h hm, fun ha p hp i => ?_⟩
  simpa [Full.toBack, Back.evalU, Back.evalL, inputTensorsBall, ha, affEval] using ball_coord eps q z p hp i

/-- C125 on an `Lp` ball (`p = 1, 2, inf`) of radius `eps`, affine and hybrid mode: the bounds are at most `2 * eps` times the spread of the network
wide. -/
theorem C125_forward_ball (m : Mode) (hm : m ≠ .ibp) (leps : ℝ) (hl : 0 < leps) (s : Slope) (eps : ℝ) (he : 0 ≤ eps) (q : PVal)
    (hq : q = .inf ∨ q = .fin 1 ∨ q = .fin 2) (z : ι → ℝ) (N : Net ℝ ι κ) (hN : N.WF) (hmul : N.NoMultiply) (k : κ) :
    let out := N.forward (ballDomain eps q) m leps s (inputTensorsBall m eps q z)
    (ballDomain eps q).getUpper z (fun i => out.wu i k) (out.bu k) - (ballDomain eps q).getLower z (fun i => out.wl i k) (out.bl k) ≤
      N.spread (fun _ => 1) k * (2 * eps) := by
  have ha : getAffine m = true := by cases m <;> first | rfl | exact absurd rfl hm
  obtain ⟨u, l, -, h2, h3⟩ := net_held (m := m) (ballDomain eps q) ha leps hl s (inputTensorsBall m eps q z) (ball_attains eps he q hq z)
    (fun i => z i + eps) (fun i => z i - eps) (fun _ => 2 * eps) (fun i => by linarith) (fun i => by linarith) (ball_held m hm eps q z) N hN hmul
  intro out
  have := h3.conc _ z (ball_attains eps he q hq z) ha k
  have := h2 k
  rw [N.spread_const] at this
  linarith

/-- C125: the same for the backward conversion of a chain. -/
theorem C125_crown_ball [Fintype κ] (m : Mode) (hm : m ≠ .ibp) (leps : ℝ) (hl : 0 < leps) (s : Slope) (uf : Bool)
    (stack : (ι → ℝ) → (ι → ℝ) → ι → ℝ) (eps : ℝ) (he : 0 ≤ eps) (q : PVal) (hq : q = .inf ∨ q = .fin 1 ∨ q = .fin 2) (z : ι → ℝ) (N : Net ℝ ι κ)
    (hc : N.Chain) (hN : N.WF) :
    ∃ out, (⟨ballDomain eps q, stack, m, leps, s, uf, inputTensorsBall m eps q z⟩ : CrownCfg (ι → ℝ) ι ℝ).model N = .ok out ∧ ∀ k,
      (ballDomain eps q).getUpper z (fun i => out.wu i k) (out.bu k) - (ballDomain eps q).getLower z (fun i => out.wl i k) (out.bl k) ≤
        N.spread (fun _ => 1) k * (2 * eps) := by
  have ha : getAffine m = true := by cases m <;> first | rfl | exact absurd rfl hm
  obtain ⟨out, h1, u, l, h2, h3⟩ := model_held (⟨ballDomain eps q, stack, m, leps, s, uf, inputTensorsBall m eps q z⟩ : CrownCfg (ι → ℝ) ι ℝ) hl
    (LpBall z eps q) (ball_attains eps he q hq z) (ball_input_sound m eps q z) (fun h => absurd h hm) (fun p hp => C27_input_ball m eps q z p hp)
    (fun i => z i + eps) (fun i => z i - eps) (fun _ => 2 * eps) (fun p hp i => ball_coord eps q z p hp i) (fun i => by linarith)
    (ball_held m hm eps q z) N hc hN
  refine ⟨out, h1, fun k => ?_⟩
  have h3 : Held m (LpBall z eps q) out u l := h3
  have := h3.conc _ z (ball_attains eps he q hq z) ha k
  have := h2 k
  rw [N.spread_const] at this
  linarith

end Ball

/-- C125 cannot be improved: on `[-1, 2]` the bounds of `ReLU(x)` are 3 wide for every method except forward-ibp and forward-hybrid. -/
theorem C125_sharp :
    let n : Net ℚ (Fin 1) (Fin 1) := .layer .input plainRelu
    let b : BoxOf (Fin 1) ℚ := (fun _ => -1, fun _ => 2)
    n.spread (fun _ => 3) 0 = 3 ∧
    rangeUpper .affine b (n.onBox .affine (1 / 10000000) .vSlope b) 0 - rangeLower .affine b (n.onBox .affine (1 / 10000000) .vSlope b) 0 = 3 ∧
    ∀ m uf, ∃ out, (boxCrown m (1 / 10000000) .vSlope uf b.1 b.2).model n = .ok out ∧
      rangeUpper m b out 0 - rangeLower m b out 0 = 3 := by
  refine ⟨by decide +kernel, by decide +kernel, fun m uf => ?_⟩
  cases m <;> cases uf <;> exact ⟨_, rfl, by decide +kernel⟩

/-- Non-vacuity of C125: forward-affine bounds of `ReLU(x) - x` on `[-11/10, 1]`, with 1 and with 64 sub-boxes; the exact range is `[0, 11/10]`, the
spread is 2 and the gain 1/4. -/
example : reluMinusId.spread (fun _ => 1) 0 = 2 ∧ reluMinusId.gain 0 = 1 / 4 ∧ reluMinusId.NoMultiply ∧
    getRangeBox (reluMinusId.onBox .affine (1 / 10000000) .vSlope) .affine 0 1 [(fun _ => -11 / 10, fun _ => 1)] = .ok ([11 / 10], [-1]) ∧
    getRangeBox (reluMinusId.onBox .affine (1 / 10000000) .vSlope) .affine 0 64 [(fun _ => -11 / 10, fun _ => 1)] = .ok ([11 / 10], [-1 / 64]) := by
  refine ⟨by decide +kernel, by decide +kernel, ⟨by decide, trivial, trivial⟩, by decide +kernel, by decide +kernel⟩

/-- Non-vacuity of `C125_range_crown`: a network with two ReLUs converted with `crown`, on `[-1, 3]`, with 1 and with 16 sub-boxes; the network
computes `ReLU(x + 1) - 2 * ReLU(x)`, whose range is `[-2, 1]`, and its spread is 3. -/
example :
    let n : Net ℚ (Fin 1) (Fin 1) := .layer (.layer (.layer .input (.dense (fun _ _ => 1) ![1, 0])) (.relu (fun _ => 1) fun _ => 1))
      (.dense (μ := Fin 1) ![fun _ => 1, fun _ => -2] fun _ => 0)
    n.spread (fun _ => 1) 0 = 3 ∧
    ∃ net : BoxOf (Fin 1) ℚ → Full ((Fin 1 → ℚ) × (Fin 1 → ℚ)) (Fin 1) (Fin 1) ℚ,
      (∀ c, (boxCrown .affine (1 / 10000000) .vSlope false c.1 c.2).model n = .ok (net c)) ∧
      getRangeBox net .affine 0 1 [(fun _ => -1, fun _ => 3)] = .ok ([2], [-2]) ∧
      getRangeBox net .affine 0 16 [(fun _ => -1, fun _ => 3)] = .ok ([1], [-2]) := by
  refine ⟨by decide +kernel, _, fun c => rfl, by decide +kernel, by decide +kernel⟩

/-- Non-vacuity of `C125_adv`: `robustNet` on `[-1, 1]`, forward-affine, 64 sub-boxes. -/
example : ∃ sc, getAdvBox (robustNet.onBox .affine (1 / 10000000) .vSlope) .affine 0 64 [⟨(fun _ => -1, fun _ => 1), ![0, 1], ![1, 0]⟩] = .ok [sc] ∧
    sc < 0 := by
  have hs : ∀ k, robustNet.spread (fun _ => 1) k = 2 := by decide +kernel
  have hg : ∀ k, robustNet.gain k ≤ 10 := by decide +kernel
  refine C125_adv .affine rfl (1 / 10000000) (by norm_num) .vSlope robustNet ⟨⟨⟨trivial, trivial⟩, ?_⟩, trivial⟩ trivial _ (fun _ => by norm_num) ?_ 2
    (fun _ => by norm_num) 2 10 (fun k => (hs k).le) hg 6 64 (by norm_num) ?_ 0
  · exact fun _ => ⟨⟨by norm_num, by norm_num⟩, by norm_num, by norm_num⟩
  · refine ⟨?_, ?_, ⟨0, rfl⟩, ⟨1, rfl⟩⟩ <;> intro k <;> fin_cases k <;> simp
  · intro p _ t s ht hs
    obtain rfl : t = 0 := by fin_cases t <;> simp_all
    obtain rfl : s = 1 := by fin_cases s <;> simp_all
    simp only [robustNet, Net.eval, Lay.eval, Fin.sum_univ_two]
    norm_num

end Decomon
