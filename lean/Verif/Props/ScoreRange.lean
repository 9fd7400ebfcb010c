import Verif.Props.LabelSets
import Mathlib.Data.Rat.Init
import Mathlib.Algebra.Order.Field.Rat
import Mathlib.Tactic.Linarith
import Mathlib.Tactic.NormNum

/-!
C161: the scores of `get_adv_box` and the ranges of `get_range_box`.
-/

namespace Decomon

section
variable {n d : ℕ} {X α : Type} [Field α] [LinearOrder α] [IsStrictOrderedRing α]

/-- The bound of a difference of affine bounds is at most the difference of their bounds. -/
theorem affinePair_le {ι κ : Type} [Fintype ι] (b : BoxOf ι α) (hb : GoodBox b) (f : Full X ι κ α) (t s : κ) :
    affinePair b f t s ≤ getUpperBox b.1 b.2 (fun i => f.wu i t) (f.bu t) - getLowerBox b.1 b.2 (fun i => f.wl i s) (f.bl s) := by
  unfold affinePair getUpperBox getLowerBox
  have : ∑ i, (max (f.wu i t - f.wl i s) 0 * b.2 i + min (f.wu i t - f.wl i s) 0 * b.1 i) ≤
      ∑ i, (max (f.wu i t) 0 * b.2 i + min (f.wu i t) 0 * b.1 i) - ∑ i, (max (f.wl i s) 0 * b.1 i + min (f.wl i s) 0 * b.2 i) := by
    rw [← Finset.sum_sub_distrib]
    refine Finset.sum_le_sum fun i _ => ?_
    have h := hb i
    have e : ∀ a : α, min a 0 = a - max a 0 := fun a => by have := max_add_min a 0; linarith
    have k : max (f.wu i t - f.wl i s) 0 ≤ max (f.wu i t) 0 + (max (f.wl i s) 0 - f.wl i s) :=
      max_le (by linarith [le_max_left (f.wu i t) 0, le_max_right (f.wl i s) 0]) (by linarith [le_max_right (f.wu i t) 0, le_max_left (f.wl i s) 0])
    simp only [e]
    nlinarith [mul_nonneg (sub_nonneg.2 k) (sub_nonneg.2 h)]
  linarith

/-- The affine bounds of every output are at least as good as its constant bounds. -/
def AffineBetter {ι κ : Type} [Fintype ι] (b : BoxOf ι α) (f : Full X ι κ α) : Prop :=
  ∀ k, getUpperBox b.1 b.2 (fun i => f.wu i k) (f.bu k) ≤ f.uc k ∧ f.lc k ≤ getLowerBox b.1 b.2 (fun i => f.wl i k) (f.bl k)

variable [Nonempty (Fin d)]

theorem score_range (net : BoxOf (Fin (n + 1)) α → Full X (Fin (n + 1)) (Fin d) α) (m : Mode) (batch batch' nSub : ℕ) (hn : nSub ≤ 1)
    (rows : List (AdvSample (Fin (n + 1)) (Fin d) α)) (hb : ∀ r ∈ rows, ∀ i, r.box.1 i ≤ r.box.2 i) (hl : ∀ r ∈ rows, Labels r.src r.tgt) :
    ∃ us ls scs, getRangeBox net m batch nSub (rows.map AdvSample.box) = .ok (us, ls) ∧ getAdvBox net m batch' nSub rows = .ok scs ∧
      scs.length = rows.length ∧
      ∀ (i : ℕ) r sc, rows[i]? = some r → scs[i]? = some sc → PairScore net m r sc ∧
        ∀ k : Fin d, us[i * d + k]? = some (rangeUpper m r.box (net r.box) k) ∧ ls[i * d + k]? = some (rangeLower m r.box (net r.box) k) := by
  obtain ⟨scs, g1, g2⟩ := getAdvBox_pairScore net m batch' nSub rows hb hl
  have e : subBoxes nSub (rows.map AdvSample.box) = (rows.map AdvSample.box, 1) := by unfold subBoxes; rw [if_neg (by omega)]
  refine ⟨_, _, scs, by
    rw [getRangeBox_eq net _ batch nSub _ fun b hb' => by obtain ⟨r, hr, rfl⟩ := List.mem_map.1 hb'; exact hb r hr, e]
    simp only [lt_irrefl, if_false]; rfl, g1, g2.length_eq.symm, fun i r sc hi hs => ⟨?_, fun k => ⟨?_, ?_⟩⟩⟩
  · obtain ⟨h1, rfl⟩ := List.getElem?_eq_some_iff.1 hi
    obtain ⟨h2, rfl⟩ := List.getElem?_eq_some_iff.1 hs
    rw [List.forall₂_iff_get] at g2
    obtain ⟨grp, a, e⟩ := g2.2 i h1 h2
    rw [refineBoxes_le_one nSub hn] at a
    simp only [List.get_eq_getElem] at a e
    cases a with
    | cons h t =>
      cases t
      rw [e]
      exact h
  · exact flatRows_getElem? _ i _ (by rw [List.map_map, List.getElem?_map, hi]; rfl) k
  · exact flatRows_getElem? _ i _ (by rw [List.map_map, List.getElem?_map, hi]; rfl) k

/-- **C161.** Without sub-boxes the score of a sample is at most `u_t - l_s` for the ranges `[l, u]` that `get_range_box` returns and for some
target `t` and source `s` of the sample: in ibp mode, in affine mode, and in hybrid mode where the affine bounds are the better ones.  In ibp mode
it is the largest of these numbers. -/
theorem C161_score_range (net : BoxOf (Fin (n + 1)) α → Full X (Fin (n + 1)) (Fin d) α) (m : Mode) (batch batch' nSub : ℕ) (hn : nSub ≤ 1)
    (rows : List (AdvSample (Fin (n + 1)) (Fin d) α)) (hb : ∀ r ∈ rows, ∀ i, r.box.1 i ≤ r.box.2 i) (hl : ∀ r ∈ rows, Labels r.src r.tgt)
    (hm : m = .hybrid → ∀ r ∈ rows, AffineBetter r.box (net r.box)) :
    ∃ us ls scs, getRangeBox net m batch nSub (rows.map AdvSample.box) = .ok (us, ls) ∧ getAdvBox net m batch' nSub rows = .ok scs ∧
      scs.length = rows.length ∧
      ∀ (i : ℕ) r sc, rows[i]? = some r → scs[i]? = some sc →
        (∃ (t s : Fin d) (u l : α), r.tgt t = 1 ∧ r.src s = 1 ∧ us[i * d + t]? = some u ∧ ls[i * d + s]? = some l ∧ sc ≤ u - l) ∧
        (m = .ibp → ∀ (t s : Fin d) (u l : α), r.tgt t = 1 → r.src s = 1 → us[i * d + t]? = some u → ls[i * d + s]? = some l → u - l ≤ sc) := by
  obtain ⟨us, ls, scs, h1, h2, h3, h4⟩ := score_range net m batch batch' nSub hn rows hb hl
  refine ⟨us, ls, scs, h1, h2, h3, fun i r sc hi hs => ?_⟩
  obtain ⟨⟨x, y, hx, hy, e⟩, hk⟩ := h4 i r sc hi hs
  have hr := List.mem_of_getElem? hi
  have aff : ∃ t s, r.tgt t = 1 ∧ r.src s = 1 ∧ y ≤
      getUpperBox r.box.1 r.box.2 (fun i => (net r.box).wu i t) ((net r.box).bu t) - getLowerBox r.box.1 r.box.2 (fun i => (net r.box).wl i s) ((net r.box).bl s) := by
    obtain ⟨t, s, ht, hs', rfl⟩ := hy.1
    exact ⟨t, s, ht, hs', affinePair_le r.box (hb r hr) _ t s⟩
  cases m with
  | ibp =>
    subst e
    refine ⟨?_, fun _ t s u l ht hs' hu hlow => ?_⟩
    · obtain ⟨t, s, ht, hs', rfl⟩ := hx.1
      exact ⟨t, s, _, _, ht, hs', (hk t).1, (hk s).2, le_rfl⟩
    · cases hu.symm.trans (hk t).1
      cases hlow.symm.trans (hk s).2
      exact hx.2 ⟨t, s, ht, hs', rfl⟩
  | affine =>
    subst e
    obtain ⟨t, s, ht, hs', h⟩ := aff
    exact ⟨⟨t, s, _, _, ht, hs', (hk t).1, (hk s).2, h⟩, nofun⟩
  | hybrid =>
    subst e
    obtain ⟨t, s, ht, hs', h⟩ := aff
    refine ⟨⟨t, s, _, _, ht, hs', (hk t).1, (hk s).2, (min_le_right _ _).trans ?_⟩, nofun⟩
    simp only [rangeUpper, rangeLower, min_eq_right (hm rfl r hr t).1, max_eq_right (hm rfl r hr s).2]
    exact h

/-- **C161 (separate ranges).** If the range of every target lies below the range of every source then the score is negative. -/
theorem C161_separate_ranges (net : BoxOf (Fin (n + 1)) α → Full X (Fin (n + 1)) (Fin d) α) (m : Mode) (batch batch' nSub : ℕ) (hn : nSub ≤ 1)
    (rows : List (AdvSample (Fin (n + 1)) (Fin d) α)) (hb : ∀ r ∈ rows, ∀ i, r.box.1 i ≤ r.box.2 i) (hl : ∀ r ∈ rows, Labels r.src r.tgt)
    (hm : m = .hybrid → ∀ r ∈ rows, AffineBetter r.box (net r.box)) :
    ∃ us ls scs, getRangeBox net m batch nSub (rows.map AdvSample.box) = .ok (us, ls) ∧ getAdvBox net m batch' nSub rows = .ok scs ∧
      scs.length = rows.length ∧
      ∀ (i : ℕ) r sc, rows[i]? = some r → scs[i]? = some sc →
        (∀ (t s : Fin d) (u l : α), r.tgt t = 1 → r.src s = 1 → us[i * d + t]? = some u → ls[i * d + s]? = some l → u < l) → sc < 0 := by
  obtain ⟨us, ls, scs, h1, h2, h3, h4⟩ := C161_score_range net m batch batch' nSub hn rows hb hl hm
  refine ⟨us, ls, scs, h1, h2, h3, fun i r sc hi hs h => ?_⟩
  obtain ⟨⟨t, s, u, l, ht, hs', hu, hlow, hle⟩, -⟩ := h4 i r sc hi hs
  have := h t s u l ht hs' hu hlow
  linarith

end

/-- **C161 (crown).** The models converted by `crown` and `crown-forward-*` satisfy the condition of the hybrid mode: their constant bounds are
computed from the affine ones. -/
theorem C161_crown {ι κ α : Type} [Fintype ι] [DecidableEq ι] [Field α] [LinearOrder α] (eps : α) (slope : Slope) (fwd : Bool) (N : Net α ι κ) (b : BoxOf ι α)
    (f : Full (BoxOf ι α) ι κ α) (h : (boxCrown .hybrid eps slope fwd b.1 b.2).model N = .ok f) : AffineBetter b f := by
  unfold CrownCfg.model at h
  cases hf : ((boxCrown .hybrid eps slope fwd b.1 b.2).node N).first with
  | error e => rw [hf] at h; cases h
  | ok B =>
    rw [hf] at h
    obtain rfl := Except.ok.inj h
    exact fun k => ⟨le_rfl, le_rfl⟩

/-! ### Concrete cases -/

/-- The networks of the cases of C160 and C161 converted by `crown` in hybrid mode. -/
def crownOn {κ : Type} (N : Net ℚ (Fin 1) κ) (b : BoxOf (Fin 1) ℚ) : Full (BoxOf (Fin 1) ℚ) (Fin 1) κ ℚ :=
  match (boxCrown .hybrid (1 / 10 ^ 7) .vSlope false b.1 b.2).model N with
  | .ok f => f
  | .error _ => ⟨b, fun _ => 0, fun _ _ => 0, fun _ => 0, fun _ => 0, fun _ _ => 0, fun _ => 0, fun _ => 0, fun _ => 0⟩

theorem crownOn_ok : (boxCrown .hybrid (1 / 10 ^ 7) .vSlope false threeSample.box.1 threeSample.box.2).model threeOutputs =
    .ok (crownOn threeOutputs threeSample.box) := by rfl

example (batch batch' : ℕ) := C161_score_range (crownOn threeOutputs) .hybrid batch batch' 1 le_rfl [threeSample] (by decide +kernel)
  (by simpa using threeSample_labels) fun _ r hr => by
    obtain rfl := List.mem_singleton.1 hr
    exact C161_crown _ _ _ _ _ _ crownOn_ok

example (m : Mode) (hm : m ≠ .hybrid) (batch batch' : ℕ) := C161_score_range (threeOutputs.onBox m (1 / 10 ^ 7) .vSlope) m batch batch' 1 le_rfl
  [threeSample, threeSample.onePair 1 0] (by decide +kernel)
  (by simpa using ⟨threeSample_labels, onePair_labels threeSample 1 0⟩) fun h => absurd h hm

/-- The ranges of target 1 (`[-16/5, -6/5]`) and of source 0 (`[-1, 2]`) are separate: the score is negative. -/
example : getRangeBox (threeOutputs.onBox .ibp (1 / 10 ^ 7) .vSlope) .ibp 0 1 [threeSample.box] = .ok ([2, -6 / 5, 3 / 2], [-1, -16 / 5, -3 / 2]) ∧
    getAdvBox (threeOutputs.onBox .ibp (1 / 10 ^ 7) .vSlope) .ibp 0 1 [threeSample.onePair 1 0] = .ok [-1 / 5] := by
  constructor <;> decide +kernel

example : ∃ us ls scs, getRangeBox (threeOutputs.onBox .ibp (1 / 10 ^ 7) .vSlope) .ibp 3 1 [threeSample.box] = .ok (us, ls) ∧
    getAdvBox (threeOutputs.onBox .ibp (1 / 10 ^ 7) .vSlope) .ibp 2 1 [threeSample.onePair 1 0] = .ok scs ∧ scs.length = 1 ∧
    ∀ (i : ℕ) r sc, [threeSample.onePair 1 0][i]? = some r → scs[i]? = some sc →
      (∀ (t s : Fin 3) (u l : ℚ), r.tgt t = 1 → r.src s = 1 → us[i * 3 + t]? = some u → ls[i * 3 + s]? = some l → u < l) → sc < 0 :=
  C161_separate_ranges (threeOutputs.onBox .ibp (1 / 10 ^ 7) .vSlope) .ibp 3 2 1 le_rfl [threeSample.onePair 1 0] (by decide +kernel)
    (by simpa using onePair_labels threeSample 1 0) nofun

/-- Two outputs of one input: the constant `1/2`, computed as `(x + 5) - (x + 5) + 1/2`, and `-relu(x)`. -/
def twoOutputs : Net ℚ (Fin 1) (Fin 2) :=
  .layer (.layer (.layer .input (.dense ![![1, 1, 1]] ![0, 5, 5])) (.relu (fun _ => 1) fun _ => 1)) (.dense ![![0, -1], ![1, 0], ![-1, 0]] ![1 / 2, 0])

/-- The box `[-1, 2]`, source 0, target 1. -/
def twoSample : AdvSample (Fin 1) (Fin 2) ℚ := ⟨(fun _ => -1, fun _ => 2), ![1, 0], ![0, 1]⟩

theorem twoSample_values :
    getRangeBox (twoOutputs.onBox .hybrid (1 / 10 ^ 7) .vSlope) .hybrid 0 1 [twoSample.box] = .ok ([1 / 2, 0], [1 / 2, -2]) ∧
    getAdvBox (twoOutputs.onBox .hybrid (1 / 10 ^ 7) .vSlope) .hybrid 0 1 [twoSample] = .ok [1 / 2] := by
  constructor <;> decide +kernel

/-- **C161 (the limit in hybrid mode).** With `forward-hybrid` the ranges can be separate while the score is positive: the range of the target comes
from its constant bounds and the range of the source from its affine bounds, which the score never combines. -/
theorem C161_hybrid_refuted :
    ¬ ∀ (N : Net ℚ (Fin 1) (Fin 2)) (b : BoxOf (Fin 1) ℚ) (u0 u1 l0 l1 sc : ℚ),
      getRangeBox (N.onBox .hybrid (1 / 10 ^ 7) .vSlope) .hybrid 0 1 [b] = .ok ([u0, u1], [l0, l1]) →
      getAdvBox (N.onBox .hybrid (1 / 10 ^ 7) .vSlope) .hybrid 0 1 [⟨b, ![1, 0], ![0, 1]⟩] = .ok [sc] → u1 < l0 → sc < 0 := by
  intro h
  have := h twoOutputs twoSample.box _ _ _ _ _ twoSample_values.1 twoSample_values.2 (by norm_num)
  norm_num at this

end Decomon
