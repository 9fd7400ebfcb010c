import Verif.SpecLabelSets
import Verif.Props.Refine
import Mathlib.Data.Rat.Init
import Mathlib.Algebra.Order.Field.Rat
import Mathlib.Tactic.FinCases

/-!
C160: the score of sets of labels and the scores of their pairs.
-/

namespace Decomon

section
variable {n : ℕ} {X κ α : Type} [Fintype κ] [Nonempty κ] [Field α] [LinearOrder α] [IsStrictOrderedRing α]

/-- The number that `get_adv_box` computes on one box. -/
def PairScore {ι : Type*} [Fintype ι] (net : BoxOf ι α → Full X ι κ α) (m : Mode) (r : AdvSample ι κ α) (sc : α) : Prop :=
  ∃ a b, IsGreatest (pairValues (ibpPair (net r.box), r.src, r.tgt)) a ∧ IsGreatest (pairValues (affinePair r.box (net r.box), r.src, r.tgt)) b ∧
    sc = match m with
      | .ibp => a
      | .affine => b
      | .hybrid => min a b

theorem advBase_pairScore {ι : Type*} [Fintype ι] (net : BoxOf ι α → Full X ι κ α) (m : Mode) (l : List (AdvSample ι κ α))
    (h : ∀ r ∈ l, GoodBox r.box ∧ Labels r.src r.tgt) : ∃ scs, advBase net m l = .ok scs ∧ List.Forall₂ (PairScore net m) l scs := by
  have hgood : badBoxes (l.map AdvSample.box) = false :=
    (not_bad_iff _).2 (fun b hb' => by obtain ⟨r, hr, rfl⟩ := List.mem_map.1 hb'; exact (h r hr).1)
  have key : ∀ pair : AdvSample ι κ α → κ → κ → α,
      List.Forall₂ (fun r sc => IsGreatest (pairValues (pair r, r.src, r.tgt)) sc) l (maskedScores (l.map fun r => (pair r, r.src, r.tgt))) := fun pair => by
    have := C33_mask_exact (l.map fun r => (pair r, r.src, r.tgt))
    rw [List.forall₂_map_left_iff] at this
    rw [List.forall₂_iff_get] at this ⊢
    refine ⟨this.1, fun i h1 h2 => ?_⟩
    obtain ⟨z1, z2, ⟨t, ht⟩, s, hs⟩ := (h _ (List.get_mem l ⟨i, h1⟩)).2
    exact (this.2 i h1 h2).2 z1 z2 ⟨_, t, s, ht, hs, rfl⟩
  have k1 := key fun r => ibpPair (net r.box)
  have k2 := key fun r => affinePair r.box (net r.box)
  unfold advBase
  rw [hgood]
  simp only [Bool.false_eq_true, if_false]
  generalize maskedScores (l.map fun r => (ibpPair (net r.box), r.src, r.tgt)) = A at k1
  generalize maskedScores (l.map fun r => (affinePair r.box (net r.box), r.src, r.tgt)) = B at k2
  cases m with
  | ibp =>
    refine ⟨_, rfl, ?_⟩
    rw [List.forall₂_iff_get] at *
    exact ⟨k1.1, fun i h1 h2 => ⟨_, _, k1.2 i h1 h2, k2.2 i h1 (k2.1 ▸ h1), rfl⟩⟩
  | affine =>
    refine ⟨_, rfl, ?_⟩
    rw [List.forall₂_iff_get] at *
    exact ⟨k2.1, fun i h1 h2 => ⟨_, _, k1.2 i h1 (k1.1 ▸ h1), k2.2 i h1 h2, rfl⟩⟩
  | hybrid =>
    refine ⟨_, rfl, ?_⟩
    rw [List.forall₂_iff_get] at *
    refine ⟨by rw [List.length_zipWith, ← k1.1, ← k2.1, min_self], fun i h1 h2 => ⟨_, _, k1.2 i h1 (k1.1 ▸ h1), k2.2 i h1 (k2.1 ▸ h1), ?_⟩⟩
    simp only [List.get_eq_getElem, List.getElem_zipWith]

theorem getAdvBox_pairScore (net : BoxOf (Fin (n + 1)) α → Full X (Fin (n + 1)) κ α) (m : Mode) (batch nSub : ℕ)
    (rows : List (AdvSample (Fin (n + 1)) κ α)) (hb : ∀ r ∈ rows, ∀ i, r.box.1 i ≤ r.box.2 i) (hl : ∀ r ∈ rows, Labels r.src r.tgt) :
    ∃ scs, getAdvBox net m batch nSub rows = .ok scs ∧ List.Forall₂ (fun (r : AdvSample (Fin (n + 1)) κ α) sc =>
      ∃ grp, List.Forall₂ (fun b s => PairScore net m ⟨b, r.src, r.tgt⟩ s) (refineBoxes true nSub r.box) grp ∧ sc = listMax grp) rows scs :=
  getAdvBox_map net m (PairScore net m) batch nSub rows Labels hl hb (advBase_pairScore net m)

omit [Nonempty κ] [IsStrictOrderedRing α] in
theorem PairScore.mono {ι : Type*} [Fintype ι] {net : BoxOf ι α → Full X ι κ α} {m : Mode} {r r' : AdvSample ι κ α} {sc sc' : α} (h : PairScore net m r sc)
    (h' : PairScore net m r' sc') (hw : r'.Within r) : sc' ≤ sc := by
  obtain ⟨a, b, ha, hb, rfl⟩ := h
  obtain ⟨a', b', ha', hb', rfl⟩ := h'
  obtain ⟨e, h1, h2⟩ := hw
  rw [e] at ha' hb'
  have haa : a' ≤ a := by
    obtain ⟨t, s, ht, hs, rfl⟩ := ha'.1
    exact ha.2 ⟨t, s, h2 t ht, h1 s hs, rfl⟩
  have hbb : b' ≤ b := by
    obtain ⟨t, s, ht, hs, rfl⟩ := hb'.1
    exact hb.2 ⟨t, s, h2 t ht, h1 s hs, rfl⟩
  cases m with
  | ibp => exact haa
  | affine => exact hbb
  | hybrid => exact min_le_min haa hbb

/-- **C160 (fewer labels).** With fewer source labels and fewer target labels (at least one of each) no score is larger, whatever the batch
sizes. -/
theorem C160_fewer_labels (net : BoxOf (Fin (n + 1)) α → Full X (Fin (n + 1)) κ α) (m : Mode) (batch batch' nSub : ℕ)
    (rows rows' : List (AdvSample (Fin (n + 1)) κ α)) (hb : ∀ r ∈ rows, ∀ i, r.box.1 i ≤ r.box.2 i) (hl : ∀ r ∈ rows, Labels r.src r.tgt)
    (hl' : ∀ r ∈ rows', Labels r.src r.tgt) (hw : List.Forall₂ (fun r' r => r'.Within r) rows' rows) :
    ∃ scs scs', getAdvBox net m batch nSub rows = .ok scs ∧ getAdvBox net m batch' nSub rows' = .ok scs' ∧ scs.length = rows.length ∧
      List.Forall₂ (fun sc' sc => sc' ≤ sc) scs' scs := by
  have hb' : ∀ r ∈ rows', ∀ i, r.box.1 i ≤ r.box.2 i := fun r' h' => by
    obtain ⟨r, hr, e, -⟩ := forall₂_left hw h'
    rw [e]; exact hb r hr
  obtain ⟨scs, g1, g2⟩ := getAdvBox_pairScore net m batch nSub rows hb hl
  obtain ⟨scs', g1', g2'⟩ := getAdvBox_pairScore net m batch' nSub rows' hb' hl'
  refine ⟨scs, scs', g1, g1', g2.length_eq.symm, ?_⟩
  have hlen := hw.length_eq
  rw [List.forall₂_iff_get] at g2 g2' hw ⊢
  refine ⟨by rw [← g2.1, ← g2'.1, hlen], fun i i1 i2 => ?_⟩
  have j : i < rows.length := g2.1 ▸ i2
  have j' : i < rows'.length := g2'.1 ▸ i1
  obtain ⟨grp, a, e⟩ := g2.2 i j i2
  obtain ⟨grp', a', e'⟩ := g2'.2 i j' i1
  have w := hw.2 i j' j
  generalize rows.get ⟨i, j⟩ = r at *
  generalize rows'.get ⟨i, j'⟩ = r' at *
  rw [e, e']
  refine listMax_le ?_ fun v hv => ?_
  · intro hn
    rw [hn] at a'
    exact refineBoxes_ne_nil nSub r'.box (by simpa using a')
  · obtain ⟨c, hc, hv⟩ := forall₂_right a' hv
    rw [w.1] at hc
    obtain ⟨v', hv', hg⟩ := forall₂_left a hc
    exact (hg.mono hv ⟨rfl, w.2⟩).trans (le_listMax hv')

variable [DecidableEq κ]

omit [Fintype κ] [Nonempty κ] [IsStrictOrderedRing α] in
theorem onePair_labels {ι : Type*} [NeZero (1 : α)] (r : AdvSample ι κ α) (t s : κ) : Labels (r.onePair t s).src (r.onePair t s).tgt :=
  ⟨fun k => by by_cases h : k = s <;> simp [AdvSample.onePair, h], fun k => by by_cases h : k = t <;> simp [AdvSample.onePair, h],
    ⟨t, by simp [AdvSample.onePair]⟩, s, by simp [AdvSample.onePair]⟩

omit [Fintype κ] [Nonempty κ] in
theorem onePair_within {ι : Type*} {r : AdvSample ι κ α} {t s : κ} (ht : r.tgt t = 1) (hs : r.src s = 1) : (r.onePair t s).Within r := by
  refine ⟨rfl, fun k h => ?_, fun k h => ?_⟩
  · by_cases e : k = s
    · rw [e, hs]
    · simp [AdvSample.onePair, e] at h
  · by_cases e : k = t
    · rw [e, ht]
    · simp [AdvSample.onePair, e] at h

/-- **C160 (pairs).** One call for each pair of a target and a source gives scores that are at most the score of the whole sets; in ibp and in
affine mode the score of the sets is the largest score of their pairs. -/
theorem C160_pairs (net : BoxOf (Fin (n + 1)) α → Full X (Fin (n + 1)) κ α) (m : Mode) (batch batch' nSub : ℕ) (r : AdvSample (Fin (n + 1)) κ α)
    (hb : ∀ i, r.box.1 i ≤ r.box.2 i) (hl : Labels r.src r.tgt) :
    ∃ (sc : α) (score : κ → κ → α), getAdvBox net m batch nSub [r] = .ok [sc] ∧
      (∀ t s, getAdvBox net m batch' nSub [r.onePair t s] = .ok [score t s]) ∧
      (∀ t s, r.tgt t = 1 → r.src s = 1 → score t s ≤ sc) ∧
      (m ≠ .hybrid → ∃ t s, r.tgt t = 1 ∧ r.src s = 1 ∧ score t s = sc) := by
  have one : ∀ (b : ℕ) (r : AdvSample (Fin (n + 1)) κ α), (∀ i, r.box.1 i ≤ r.box.2 i) → Labels r.src r.tgt → ∃ sc, getAdvBox net m b nSub [r] = .ok [sc] ∧
      ∃ grp, List.Forall₂ (fun b s => PairScore net m ⟨b, r.src, r.tgt⟩ s) (refineBoxes true nSub r.box) grp ∧ sc = listMax grp := fun b r hb hl => by
    obtain ⟨scs, g1, g2⟩ := getAdvBox_pairScore net m b nSub [r] (by simpa using hb) (by simpa using hl)
    cases g2 with
    | cons h t =>
      cases t
      exact ⟨_, g1, h⟩
  obtain ⟨sc, g, grp, a, e⟩ := one batch r hb hl
  choose score g' hs using fun t s => one batch' (r.onePair t s) hb (onePair_labels r t s)
  refine ⟨sc, score, g, g', fun t s ht hsr => ?_, fun hm => ?_⟩
  · obtain ⟨grp', a', e'⟩ := hs t s
    rw [e, e']
    refine listMax_le (fun hn => ?_) fun v hv => ?_
    · rw [hn] at a'
      exact refineBoxes_ne_nil nSub (r.onePair t s).box (by simpa using a')
    · obtain ⟨c, hc, hv⟩ := forall₂_right a' hv
      obtain ⟨v', hv', hg⟩ := forall₂_left a hc
      exact (hg.mono hv ⟨rfl, (onePair_within ht hsr).2⟩).trans (le_listMax hv')
  · have hne : grp ≠ [] := fun hn => by
      rw [hn] at a
      exact refineBoxes_ne_nil nSub r.box (by simpa using a)
    have hmem : sc ∈ grp := e ▸ listMax_mem hne
    obtain ⟨c, hc, x, y, hx, hy, hxy⟩ := forall₂_right a hmem
    have pick : ∃ t s, r.tgt t = 1 ∧ r.src s = 1 ∧ ∀ v, PairScore net m ⟨c, (r.onePair t s).src, (r.onePair t s).tgt⟩ v → v = sc := by
      cases m with
      | hybrid => exact absurd rfl hm
      | ibp =>
        obtain ⟨t, s, ht, hs, rfl⟩ := hx.1
        refine ⟨t, s, ht, hs, ?_⟩
        rintro v ⟨x', y', hx', -, rfl⟩
        obtain ⟨t', s', ht', hs', e'⟩ := hx'.1
        rw [hxy]
        by_cases k1 : t' = t <;> by_cases k2 : s' = s <;> simp_all [AdvSample.onePair]
      | affine =>
        obtain ⟨t, s, ht, hs, rfl⟩ := hy.1
        refine ⟨t, s, ht, hs, ?_⟩
        rintro v ⟨x', y', -, hy', rfl⟩
        obtain ⟨t', s', ht', hs', e'⟩ := hy'.1
        rw [hxy]
        by_cases k1 : t' = t <;> by_cases k2 : s' = s <;> simp_all [AdvSample.onePair]
    obtain ⟨t, s, ht, hsr, hv⟩ := pick
    refine ⟨t, s, ht, hsr, ?_⟩
    obtain ⟨grp', a', e'⟩ := hs t s
    refine le_antisymm ?_ ?_
    · rw [e, e']
      refine listMax_le (fun hn => ?_) fun v hv => ?_
      · rw [hn] at a'
        exact refineBoxes_ne_nil nSub (r.onePair t s).box (by simpa using a')
      · obtain ⟨c, hc, hv⟩ := forall₂_right a' hv
        obtain ⟨v', hv', hg⟩ := forall₂_left a hc
        exact (hg.mono hv ⟨rfl, (onePair_within ht hsr).2⟩).trans (le_listMax hv')
    · obtain ⟨v, hv1, hv2⟩ := forall₂_left a' hc
      rw [e', ← hv v hv2]
      exact le_listMax hv1

end

/-! ### Concrete cases -/

/-- Three outputs of one input: `x`, `-relu(x) - 6/5` and `x - 1/2`. -/
def threeOutputs : Net ℚ (Fin 1) (Fin 3) :=
  .layer (.layer (.layer .input (.dense ![![1, 1]] ![0, 5])) (.relu (fun _ => 1) fun _ => 1)) (.dense ![![0, -1, 0], ![1, 0, 1]] ![-5, -6 / 5, -11 / 2])

/-- The box `[-1, 2]`, source 0, targets 1 and 2. -/
def threeSample : AdvSample (Fin 1) (Fin 3) ℚ := ⟨(fun _ => -1, fun _ => 2), ![1, 0, 0], ![0, 1, 1]⟩

theorem threeSample_labels : Labels threeSample.src threeSample.tgt :=
  ⟨fun k => by fin_cases k <;> simp [threeSample], fun k => by fin_cases k <;> simp [threeSample], ⟨1, rfl⟩, 0, rfl⟩

example (m : Mode) (batch batch' nSub : ℕ) :=
  C160_pairs (threeOutputs.onBox m (1 / 10 ^ 7) .vSlope) m batch batch' nSub threeSample (by decide +kernel) threeSample_labels

example (m : Mode) :=
  C160_fewer_labels (threeOutputs.onBox m (1 / 10 ^ 7) .vSlope) m 0 1 3 [threeSample] [threeSample.onePair 2 0] (by decide +kernel)
    (by simpa using threeSample_labels) (by simpa using onePair_labels threeSample 2 0) (.cons (onePair_within rfl rfl) .nil)

/-- The scores of the pairs and of the sets, in the three modes. -/
example :
    getAdvBox (threeOutputs.onBox .ibp (1 / 10 ^ 7) .vSlope) .ibp 0 1 [threeSample.onePair 1 0, threeSample.onePair 2 0, threeSample] =
      .ok [-1 / 5, 5 / 2, 5 / 2] ∧
    getAdvBox (threeOutputs.onBox .affine (1 / 10 ^ 7) .vSlope) .affine 0 1 [threeSample.onePair 1 0, threeSample.onePair 2 0, threeSample] =
      .ok [4 / 5, -1 / 2, 4 / 5] := by
  constructor <;> decide +kernel

/-- **C160 (the limit in hybrid mode).** The score of the sets can be larger than those of all their pairs, since the smaller of the two kinds
of bounds is taken after the maximum over the pairs: here each target alone is certified, and the two together are not. -/
theorem C160_hybrid_refuted :
    ¬ ∀ (N : Net ℚ (Fin 1) (Fin 3)) (r : AdvSample (Fin 1) (Fin 3) ℚ) (sc : ℚ) (score : Fin 3 → Fin 3 → ℚ), (∀ i, r.box.1 i ≤ r.box.2 i) →
      Labels r.src r.tgt → getAdvBox (N.onBox .hybrid (1 / 10 ^ 7) .vSlope) .hybrid 0 1 [r] = .ok [sc] →
      (∀ t s, r.tgt t = 1 → r.src s = 1 → getAdvBox (N.onBox .hybrid (1 / 10 ^ 7) .vSlope) .hybrid 0 1 [r.onePair t s] = .ok [score t s]) →
      (∀ t s, r.tgt t = 1 → r.src s = 1 → score t s < 0) → sc < 0 := by
  intro h
  have := h threeOutputs threeSample (4 / 5) (fun t _ => ![0, -1 / 5, -1 / 2] t) (by decide +kernel) threeSample_labels (by decide +kernel)
    (by decide +kernel) (by decide +kernel)
  exact absurd this (by decide +kernel)

end Decomon
