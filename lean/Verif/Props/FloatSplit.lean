import Verif.Lemmas.FloatSplit

/-!
C156: splitting a box into sub-boxes (`n_sub_boxes > 1`, `refine_box`) in rounded arithmetic, for every method.
-/

namespace Decomon

/-! ### The sub-boxes -/

section
variable {n : ℕ} {α : Type} [Field α] [LinearOrder α]

/-- C156: whatever the rounding, the sub-boxes of `refine_boxes` cover the box. -/
theorem C156_covers (rd : α → α) (nSub : ℕ) (b : BoxOf (Fin (n + 1)) α) (p : Fin (n + 1) → α) (hp : p ∈ Box b.1 b.2) :
    ∃ c ∈ refineRounded rd nSub b, p ∈ Box c.1 c.2 := cover_loop rd nSub nSub [b] p ⟨b, by simp, hp⟩

/-- C156: so do those of `refine_box`. -/
theorem C156_refine_box_covers (rd : α → α) (nSplit : ℕ) (b : BoxOf (Fin (n + 1)) α) (p : Fin (n + 1) → α) (hp : p ∈ Box b.1 b.2) :
    ∃ c ∈ refineBoxRounded rd nSplit b, p ∈ Box c.1 c.2 := cover_box_loop rd nSplit nSplit [b] _ p ⟨b, by simp, hp⟩

variable [IsStrictOrderedRing α]

/-- C156: in a binary format, without overflow, they are in the box, their corners are ordered and are numbers of the format. -/
theorem C156_inside (rd : α → α) (h : Binary rd) (nSub : ℕ) (b : BoxOf (Fin (n + 1)) α) (hb : GoodBox b) (hf : InFormat rd b) :
    ∀ c ∈ refineRounded rd nSub b, GoodBox c ∧ InFormat rd c ∧ SubBox c b :=
  part_loop h nSub nSub [b] fun c hc => by rw [List.mem_singleton.1 hc]; exact ⟨hb, hf, SubBox.refl b⟩

/-- C156: the same for `refine_box`. -/
theorem C156_refine_box_inside (rd : α → α) (h : Binary rd) (nSplit : ℕ) (b : BoxOf (Fin (n + 1)) α) (hb : GoodBox b) (hf : InFormat rd b) :
    ∀ c ∈ refineBoxRounded rd nSplit b, GoodBox c ∧ InFormat rd c ∧ SubBox c b :=
  part_box_loop h nSplit nSplit [b] _ fun c hc => by rw [List.mem_singleton.1 hc]; exact ⟨hb, hf, SubBox.refl b⟩

omit [IsStrictOrderedRing α] in
theorem refine_length (rd : α → α) (fuel nSub : ℕ) (bs bs' : List (BoxOf (Fin (n + 1)) α)) (h : bs.length = bs'.length) :
    (refineLoopRounded rd fuel nSub bs).length = (refineLoop fuel nSub bs').length := by
  induction fuel generalizing bs bs' with
  | zero => exact h
  | succ f ih =>
    simp only [refineLoopRounded, refineLoop, h]
    split
    · exact ih _ _ (by simp [splitRounded, splitBoxes, h])
    · exact h

omit [IsStrictOrderedRing α] in
/-- C156: their number does not depend on the rounding: it is the largest power of two up to `n_sub_boxes`. -/
theorem C156_count (rd : α → α) (nSub : ℕ) (hn : 0 < nSub) (b : BoxOf (Fin (n + 1)) α) : (refineRounded rd nSub b).length = 2 ^ Nat.log 2 nSub := by
  rw [refineRounded, refine_length rd nSub nSub [b] [(b.1, if true = true then b.2 else b.1)] rfl]
  exact refineBoxes_length true nSub hn b

omit [IsStrictOrderedRing α] in
/-- C156: without rounding they are the sub-boxes of the exact model. -/
theorem C156_exact (nSub : ℕ) (b : BoxOf (Fin (n + 1)) α) :
    refineRounded id nSub b = refineBoxes true nSub b ∧ refineBoxRounded id nSub b = refineBoxLoop nSub nSub [b] [boxWidth b] := by
  have s : ∀ bs : List (BoxOf (Fin (n + 1)) α), splitRounded id bs = splitBoxes bs := fun _ => rfl
  constructor
  · have key : ∀ fuel (bs : List (BoxOf (Fin (n + 1)) α)), refineLoopRounded id fuel nSub bs = refineLoop fuel nSub bs := by
      intro fuel
      induction fuel with
      | zero => exact fun _ => rfl
      | succ f ih => intro bs; simp only [refineLoopRounded, refineLoop, s, ih]
    exact key nSub [b]
  · have key : ∀ fuel (bs : List (BoxOf (Fin (n + 1)) α)) ws, refineBoxLoopRounded id fuel nSub bs ws = refineBoxLoop fuel nSub bs ws := by
      intro fuel
      induction fuel with
      | zero => exact fun _ _ => rfl
      | succ f ih =>
        intro bs ws
        simp only [refineBoxLoopRounded, refineBoxLoop, ih]
        rfl
    exact key nSub [b] _

end

theorem roundPos_double (p : ℕ) {x : ℚ} (hx : 0 < x) : roundPos p (2 * x) = 2 * roundPos p x := by
  have e : Int.log 2 (2 * x) = Int.log 2 x + 1 := by
    have h := ulp_bounds hx
    refine log_eq ?_ ?_
    · rw [zpow_add_one₀ two_ne_zero]; linarith [h.1]
    · rw [zpow_add_one₀ two_ne_zero]; linarith [h.2]
  unfold roundPos
  rw [e, show Int.log 2 x + 1 + 1 - (p : ℤ) = Int.log 2 x + 1 - p + 1 by ring, zpow_add_one₀ two_ne_zero]
  have hu : (2 : ℚ) ^ (Int.log 2 x + 1 - (p : ℤ)) ≠ 0 := zpow_ne_zero _ two_ne_zero
  rw [show 2 * x / ((2 : ℚ) ^ (Int.log 2 x + 1 - (p : ℤ)) * 2) = x / (2 : ℚ) ^ (Int.log 2 x + 1 - (p : ℤ)) by field_simp]
  ring

/-- C156: rounding to the nearest number with `p` binary digits is such a format, and a conversion to it is one of those of the theorems below. -/
theorem C156_format (p : ℕ) (hp : 0 < p) : Binary (roundNearest p) ∧ Conversion (roundNearest p) ((1 / 2) ^ p) := by
  obtain ⟨h1, -, h3⟩ := C118_float_monotone p hp
  refine ⟨⟨h1, h3, fun x hx => ?_⟩, ⟨h1, C118_float_error p⟩⟩
  have d : roundNearest p (2 * x) = 2 * roundNearest p x := by
    unfold roundNearest
    rcases lt_trichotomy x 0 with h | h | h
    · rw [if_neg (by linarith), if_pos (by linarith), if_neg (by linarith), if_pos h, show -(2 * x) = 2 * -x by ring, roundPos_double p (neg_pos.2 h)]
      ring
    · simp [h]
    · rw [if_pos (by linarith), if_pos h, roundPos_double p h]
  rw [d, hx]

/-- C156: the mode of the outputs is the one that `clone` deduces from the method. -/
theorem C156_mode (method : Method) : method.outMode = getMode (ibpAffineOfMethod method).1 (ibpAffineOfMethod method).2 := by
  cases method <;> rfl

/-! ### The refined ranges and scores -/

section
variable {ι κ α : Type} [Fintype ι] [DecidableEq ι] [Field α] [LinearOrder α] [IsStrictOrderedRing α] {rd rm cv : α → α} {δ : α}

omit [DecidableEq ι] in
theorem ModeNear.shrink {m : Mode} {X Y : ι → α} (h : ∀ i, Y i ≤ X i) {g : Full (BoxOf ι α) ι κ α} {p : ι → α} {y : κ → α} {e : κ → ModeErr α}
    (v : ModeNear m X g p y e) : ModeNear m Y g p y e := by
  refine ⟨v.const, fun ha => ⟨fun k => le_trans ?_ ((v.aff ha).1 k), (v.aff ha).2⟩⟩
  simp only [Full.sizeAff]
  exact add_le_add (Finset.sum_le_sum fun i _ => mul_le_mul_of_nonneg_left (h i) ((abs_nonneg _).trans (le_max_left _ _))) le_rfl

/-- C156: the tensors that a clone computes in rounded arithmetic on a box have sizes and errors known in advance, for every method. -/
theorem C156_rounded (hδ : 0 ≤ δ) (hδ1 : δ < 1) (h : RelError rm δ) (method : Method) (eps : α) (he : 0 < eps) (sl : Slope) (bn : α) (hbn : 0 ≤ bn)
    (b : BoxOf ι α) (X : ι → α) (hX : ∀ i, |b.1 i| ≤ X i ∧ |b.2 i| ≤ X i) (n : Net α ι κ) (hn : n.WF) (hch : method.isCrown = true → n.Chain)
    (g : Full (BoxOf ι α) ι κ α) (hg : n.CloneRounded rm method eps sl bn b g) (p : ι → α) (hp : p ∈ Box b.1 b.2) :
    ModeNear method.outMode X g p (n.eval p) (n.cloneErr method δ eps bn X) := by
  have hpX : ∀ i, |p i| ≤ X i := fun i => (peak_point b hp i).trans (max_le (hX i).1 (hX i).2)
  have fwd : ∀ m, n.RoundedMode rm m eps sl bn (inputTensorsBox m b.1 b.2) g → ModeNear m X g p (n.eval p) (n.modeErr m δ eps bn X) :=
    fun m hg => (Net.RoundedMode.near hδ hδ1 h he hbn hX hp hpX (input_nearTo m b hp hX) hn hg).2
  have back : ∀ m, n.Chain → n.FwdCrownRounded rm m eps sl bn b g →
      ModeNear m X g p (n.eval p) ((n.crownFwdFloat m δ eps bn X).out δ (Fintype.card ι)) := by
    rintro m hc ⟨f, h1, h2⟩
    obtain ⟨a1, a2⟩ := (Net.RoundedFwdCrown.nearTo hδ hδ1 h he hbn hp hX n hc hn).1 f h1
    exact h2.nearTo hδ h hp hX a1 a2
  cases method with
  | crown =>
    obtain ⟨f, h1, h2⟩ := hg
    obtain ⟨a1, a2⟩ := (Net.RoundedCrown.near hδ hδ1 h he hbn hX hp hpX n (hch rfl) hn).1 f h1
    have out : BackOut rm .ibp b f g := ⟨fun _ => h2, fun ha => absurd ha (by simp [getAffine])⟩
    exact out.nearTo hδ h hp hX a1 a2
  | crownForwardIbp => exact back .ibp (hch rfl) hg
  | crownForwardAffine => exact back .affine (hch rfl) hg
  | crownForwardHybrid => exact back .hybrid (hch rfl) hg
  | forwardIbp => exact fwd .ibp hg
  | forwardAffine => exact fwd .affine hg
  | forwardHybrid => exact fwd .hybrid hg

/-- The converted corners of the sub-boxes are at most `X` in absolute value. -/
def CornersBelow (cv : α → α) (bs : List (BoxOf ι α)) (X : ι → α) : Prop := ∀ c ∈ bs, ∀ i, |cv (c.1 i)| ≤ X i ∧ |cv (c.2 i)| ≤ X i

omit [DecidableEq ι] in
theorem corners_of_inside (hm : Monotone cv) {b : BoxOf ι α} {bs : List (BoxOf ι α)} (h : ∀ c ∈ bs, GoodBox c ∧ SubBox c b) :
    CornersBelow cv bs (boxPeak (castBox cv b)) := by
  intro c hc i
  obtain ⟨h1, h2⟩ := h c hc
  have lo : -boxPeak (castBox cv b) i ≤ cv (b.1 i) := (neg_le_neg (peak_le (castBox cv b) i).1).trans (neg_abs_le _)
  have hi : cv (b.2 i) ≤ boxPeak (castBox cv b) i := (le_abs_self _).trans (peak_le (castBox cv b) i).2
  have a1 := hm (h2 i).1
  have a2 := hm (h1 i)
  have a3 := hm (h2 i).2
  exact ⟨abs_le.2 ⟨by linarith, by linarith⟩, abs_le.2 ⟨by linarith, by linarith⟩⟩

/-- C156: the range that is returned for a sample replaced by boxes that cover its box encloses the outputs of the model on every point of the box, up to a
slack known in advance.  The model receives the points and the corners in its own format. -/
theorem C156_range (hδ : 0 ≤ δ) (hδ1 : δ < 1) (h : RelError rd δ) (h' : RelError rm δ) (hcv : Conversion cv δ) (method : Method) (eps : α) (he : 0 < eps)
    (sl : Slope) (bn : α) (hbn : 0 ≤ bn) (bs : List (BoxOf ι α)) (X : ι → α) (hX : CornersBelow cv bs X) (n : Net α ι κ) (hn : n.WF)
    (hch : method.isCrown = true → n.Chain) (k : κ) (U L : α) (hr : n.RangeOver rd rm cv method eps sl bn bs k U L)
    (p : ι → α) (hp : ∃ c ∈ bs, p ∈ Box c.1 c.2) :
    L - n.cloneRangeSlack method δ eps bn X k ≤ n.eval (fun i => cv (p i)) k ∧
      n.eval (fun i => cv (p i)) k ≤ U + n.cloneRangeSlack method δ eps bn X k := by
  obtain ⟨rs, hrs, rfl, rfl⟩ := hr
  obtain ⟨c, hc, hpc⟩ := hp
  obtain ⟨i, hi, rfl⟩ := List.getElem_of_mem hc
  have hi' : i < rs.length := by rwa [← hrs.length_eq]
  obtain ⟨g, hg, hgr⟩ := hrs.get hi hi'
  have v := C156_rounded hδ hδ1 h' method eps he sl bn hbn (castBox cv bs[i]) X (hX _ hc) n hn hch g hg _ (cast_mem hcv hpc)
  have w := (ModeNear.converted hδ hδ1 hcv hpc (v.shrink fun i => max_le ((hX _ hc) i).1 ((hX _ hc) i).2)).range hδ h hpc hgr
  have m1 : rs[i].1 ≤ listMax (rs.map Prod.fst) := le_listMax (List.mem_map.2 ⟨_, List.getElem_mem hi', rfl⟩)
  have m2 : listMin (rs.map Prod.snd) ≤ rs[i].2 := listMin_le (List.mem_map.2 ⟨_, List.getElem_mem hi', rfl⟩)
  exact ⟨le_trans (sub_le_sub_right m2 _) w.1, w.2.trans (add_le_add m1 le_rfl)⟩

/-- C156: the score that is returned bounds the differences between the outputs of the model on every point of the box, up to a slack known in advance. -/
theorem C156_score (hδ : 0 ≤ δ) (hδ1 : δ < 1) (h : RelError rd δ) (h' : RelError rm δ) (hcv : Conversion cv δ) (method : Method) (eps : α) (he : 0 < eps)
    (sl : Slope) (bn : α) (hbn : 0 ≤ bn) (bs : List (BoxOf ι α)) (X : ι → α) (hX : CornersBelow cv bs X) (n : Net α ι κ) (hn : n.WF)
    (hch : method.isCrown = true → n.Chain) (T : Set κ) (c : κ) (R : α) (hR : n.AdvOver rd rm cv method eps sl bn bs T c R)
    (p : ι → α) (hp : ∃ c ∈ bs, p ∈ Box c.1 c.2) (j : κ) (hj : j ∈ T) :
    n.eval (fun i => cv (p i)) j - n.eval (fun i => cv (p i)) c ≤ R + n.cloneAdvSlack method δ eps bn X j c := by
  obtain ⟨rs, hrs, rfl⟩ := hR
  obtain ⟨d, hd, hpd⟩ := hp
  obtain ⟨i, hi, rfl⟩ := List.getElem_of_mem hd
  have hi' : i < rs.length := by rwa [← hrs.length_eq]
  obtain ⟨g, hg, hgr⟩ := hrs.get hi hi'
  have v := C156_rounded hδ hδ1 h' method eps he sl bn hbn (castBox cv bs[i]) X (hX _ hd) n hn hch g hg _ (cast_mem hcv hpd)
  have w := (v.shrink (Y := boxPeak (castBox cv bs[i])) fun i => max_le ((hX _ hd) i).1 ((hX _ hd) i).2).score hδ h (cast_mem hcv hpd) hgr hj
  exact w.trans (add_le_add (le_listMax (List.getElem_mem hi')) le_rfl)

end

section
variable {N : ℕ} {κ α : Type} [Field α] [LinearOrder α] [IsStrictOrderedRing α] {rd rm cv : α → α} {δ : α}

/-- C156: `get_range_box` with `n_sub_boxes`: the range of the whole box, up to a slack known from the weights, the precision and the box before anything is
computed. -/
theorem C156_range_box (hδ : 0 ≤ δ) (hδ1 : δ < 1) (h : RelError rd δ) (hb2 : Binary rd) (h' : RelError rm δ) (hcv : Conversion cv δ) (method : Method) (eps : α)
    (he : 0 < eps) (sl : Slope) (bn : α) (hbn : 0 ≤ bn) (nSub : ℕ) (b : BoxOf (Fin (N + 1)) α) (hb : GoodBox b) (hf : InFormat rd b)
    (n : Net α (Fin (N + 1)) κ) (hn : n.WF) (hch : method.isCrown = true → n.Chain) (k : κ) (U L : α)
    (hr : n.RangeOver rd rm cv method eps sl bn (refineRounded rd nSub b) k U L) (p : Fin (N + 1) → α) (hp : p ∈ Box b.1 b.2) :
    L - n.cloneRangeSlack method δ eps bn (boxPeak (castBox cv b)) k ≤ n.eval (fun i => cv (p i)) k ∧
      n.eval (fun i => cv (p i)) k ≤ U + n.cloneRangeSlack method δ eps bn (boxPeak (castBox cv b)) k :=
  C156_range hδ hδ1 h h' hcv method eps he sl bn hbn _ _
    (corners_of_inside hcv.mono fun c hc => ⟨(C156_inside rd hb2 nSub b hb hf c hc).1, (C156_inside rd hb2 nSub b hb hf c hc).2.2⟩) n hn hch k U L hr p
    (C156_covers rd nSub b p hp)

/-- C156: `refine_box` with `get_upper_box` or `get_lower_box`. -/
theorem C156_refine_box (hδ : 0 ≤ δ) (hδ1 : δ < 1) (h : RelError rd δ) (hb2 : Binary rd) (h' : RelError rm δ) (hcv : Conversion cv δ) (method : Method) (eps : α)
    (he : 0 < eps) (sl : Slope) (bn : α) (hbn : 0 ≤ bn) (nSplit : ℕ) (b : BoxOf (Fin (N + 1)) α) (hb : GoodBox b) (hf : InFormat rd b)
    (n : Net α (Fin (N + 1)) κ) (hn : n.WF) (hch : method.isCrown = true → n.Chain) (k : κ) (U L : α)
    (hr : n.RangeOver rd rm cv method eps sl bn (refineBoxRounded rd nSplit b) k U L) (p : Fin (N + 1) → α) (hp : p ∈ Box b.1 b.2) :
    L - n.cloneRangeSlack method δ eps bn (boxPeak (castBox cv b)) k ≤ n.eval (fun i => cv (p i)) k ∧
      n.eval (fun i => cv (p i)) k ≤ U + n.cloneRangeSlack method δ eps bn (boxPeak (castBox cv b)) k :=
  C156_range hδ hδ1 h h' hcv method eps he sl bn hbn _ _
    (corners_of_inside hcv.mono fun c hc => ⟨(C156_refine_box_inside rd hb2 nSplit b hb hf c hc).1, (C156_refine_box_inside rd hb2 nSplit b hb hf c hc).2.2⟩) n
    hn hch k U L hr p (C156_refine_box_covers rd nSplit b p hp)

/-- C156: `get_adv_box` with `n_sub_boxes`: if the score is below the errors known in advance, Keras computes a larger output for the source class than for
every target class, on the whole box. -/
theorem C156_adv_certificate (hδ : 0 ≤ δ) (hδ1 : δ < 1) (h : RelError rd δ) (hb2 : Binary rd) (h' : RelError rm δ) (hcv : Conversion cv δ) (method : Method)
    (eps : α) (he : 0 < eps) (sl : Slope) (bn : α) (hbn : 0 ≤ bn) (bk : α → α → α → α → α → α) (hb0 : ∀ g b m s x, 0 ≤ bk g b m s x)
    (hbk : ∀ g b m s x y, 0 ≤ x → x ≤ y → bk g b m s x ≤ bk g b m s y) (σ : α) (hσ : 0 < σ) (nSub : ℕ) (b : BoxOf (Fin (N + 1)) α) (hb : GoodBox b)
    (hf : InFormat rd b) (n : Net α (Fin (N + 1)) κ) (hn : n.WF) (hch : method.isCrown = true → n.Chain) (hsd : n.SdAbove σ) (T : Set κ) (c : κ) (R : α)
    (hR : n.AdvOver rd rm cv method eps sl bn (refineRounded rd nSub b) T c R)
    (hc : ∀ j ∈ T, R < -(n.cloneAdvSlack method δ eps bn (boxPeak (castBox cv b)) j c +
      n.slackWith (roundError δ bk) σ (boxPeak (castBox cv b)) (fun _ => 0) j + n.slackWith (roundError δ bk) σ (boxPeak (castBox cv b)) (fun _ => 0) c))
    (p : Fin (N + 1) → α) (hp : p ∈ Box b.1 b.2) (v : κ → α) (hv : n.RoundedCall rm bk (fun i => cv (p i)) v) (j : κ) (hj : j ∈ T) : v j < v c := by
  have a := C156_score hδ hδ1 h h' hcv method eps he sl bn hbn _ _
    (corners_of_inside hcv.mono fun c hc => ⟨(C156_inside rd hb2 nSub b hb hf c hc).1, (C156_inside rd hb2 nSub b hb hf c hc).2.2⟩) n hn hch T c R hR p
    (C156_covers rd nSub b p hp) j hj
  have q := peak_point (castBox cv b) (cast_mem hcv hp)
  have b1 := abs_le.1 (C151_call hδ h' bk hb0 hbk σ hσ n hn hsd _ _ q v hv j)
  have b2 := abs_le.1 (C151_call hδ h' bk hb0 hbk σ hσ n hn hsd _ _ q v hv c)
  linarith [b1.2, b2.1, hc j hj]

/-- C156: `get_range_box` with `n_sub_boxes`: an upper bound below a threshold by more than the errors known in advance keeps the output that Keras computes
below it, on the whole box; so does a lower bound above it. -/
theorem C156_range_certificate (hδ : 0 ≤ δ) (hδ1 : δ < 1) (h : RelError rd δ) (hb2 : Binary rd) (h' : RelError rm δ) (hcv : Conversion cv δ) (method : Method)
    (eps : α) (he : 0 < eps) (sl : Slope) (bn : α) (hbn : 0 ≤ bn) (bk : α → α → α → α → α → α) (hb0 : ∀ g b m s x, 0 ≤ bk g b m s x)
    (hbk : ∀ g b m s x y, 0 ≤ x → x ≤ y → bk g b m s x ≤ bk g b m s y) (σ : α) (hσ : 0 < σ) (nSub : ℕ) (b : BoxOf (Fin (N + 1)) α) (hb : GoodBox b)
    (hf : InFormat rd b) (n : Net α (Fin (N + 1)) κ) (hn : n.WF) (hch : method.isCrown = true → n.Chain) (hsd : n.SdAbove σ) (k : κ) (U L t : α)
    (hr : n.RangeOver rd rm cv method eps sl bn (refineRounded rd nSub b) k U L) (p : Fin (N + 1) → α) (hp : p ∈ Box b.1 b.2) (v : κ → α)
    (hv : n.RoundedCall rm bk (fun i => cv (p i)) v) :
    (U + (n.cloneRangeSlack method δ eps bn (boxPeak (castBox cv b)) k + n.slackWith (roundError δ bk) σ (boxPeak (castBox cv b)) (fun _ => 0) k) < t →
      v k < t) ∧
    (t < L - (n.cloneRangeSlack method δ eps bn (boxPeak (castBox cv b)) k + n.slackWith (roundError δ bk) σ (boxPeak (castBox cv b)) (fun _ => 0) k) →
      t < v k) := by
  have a := C156_range_box hδ hδ1 h hb2 h' hcv method eps he sl bn hbn nSub b hb hf n hn hch k U L hr p hp
  have b1 := abs_le.1 (C151_call hδ h' bk hb0 hbk σ hσ n hn hsd _ _ (peak_point (castBox cv b) (cast_mem hcv hp)) v hv k)
  constructor <;> intro ht <;> linarith [a.1, a.2, b1.1, b1.2]

/-- C156: with the effect of the conversion on the outputs, also known in advance, the ranges enclose the outputs at the points of the box themselves. -/
theorem C156_unconverted (hδ : 0 ≤ δ) (hδ1 : δ < 1) (h : RelError rd δ) (hb2 : Binary rd) (h' : RelError rm δ) (hcv : Conversion cv δ) (method : Method) (eps : α)
    (he : 0 < eps) (sl : Slope) (bn : α) (hbn : 0 ≤ bn) (σ : α) (hσ : 0 < σ) (nSub : ℕ) (b : BoxOf (Fin (N + 1)) α) (hb : GoodBox b) (hf : InFormat rd b)
    (n : Net α (Fin (N + 1)) κ) (hn : n.WF) (hch : method.isCrown = true → n.Chain) (hsd : n.SdAbove σ) (k : κ) (U L : α)
    (hr : n.RangeOver rd rm cv method eps sl bn (refineRounded rd nSub b) k U L) (p : Fin (N + 1) → α) (hp : p ∈ Box b.1 b.2) :
    L - (n.cloneRangeSlack method δ eps bn (boxPeak (castBox cv b)) k +
        n.slackWith (noError α) σ (fun i => (1 + δ) * boxPeak b i) (fun i => δ * boxPeak b i) k) ≤ n.eval p k ∧
      n.eval p k ≤ U + (n.cloneRangeSlack method δ eps bn (boxPeak (castBox cv b)) k +
        n.slackWith (noError α) σ (fun i => (1 + δ) * boxPeak b i) (fun i => δ * boxPeak b i) k) := by
  have a := C156_range_box hδ hδ1 h hb2 h' hcv method eps he sl bn hbn nSub b hb hf n hn hch k U L hr p hp
  have q := peak_point b hp
  have q0 : ∀ i, 0 ≤ boxPeak b i := fun i => (abs_nonneg _).trans (q i)
  have e : ∀ i, |cv (p i) - p i| ≤ δ * boxPeak b i := fun i => (hcv.err (p i)).trans (mul_le_mul_of_nonneg_left (q i) hδ)
  have q1 : ∀ i, |p i| ≤ (1 + δ) * boxPeak b i := fun i => by nlinarith [q i, q0 i]
  have q2 : ∀ i, |cv (p i)| ≤ (1 + δ) * boxPeak b i := fun i => by
    have := abs_add_le (cv (p i) - p i) (p i)
    rw [sub_add_cancel] at this
    linarith [e i, q i]
  have m0 : (noError α).Mono := ⟨fun _ _ _ _ _ => le_rfl, fun _ _ _ _ _ _ _ _ _ => le_rfl⟩
  have n0 : (noError α).Nonneg := ⟨fun _ _ _ _ => le_rfl, fun _ _ _ _ _ => le_rfl⟩
  have d := C123_slack _ m0 1 one_pos .vSlope σ hσ n hn hsd (fun i => cv (p i)) (fun i => cv (p i)) p (fun i => (1 + δ) * boxPeak b i)
    (fun i => δ * boxPeak b i) q2 q2 q1 (fun i => mul_nonneg hδ (q0 i)) (fun i => ⟨by linarith [(abs_le.1 (e i)).2], by linarith [(abs_le.1 (e i)).1]⟩) _ _ _
    (n.eval_runs _ n0 p) (n.runsIbp_point _ n0 1 .vSlope fun i => cv (p i)) k
  constructor <;> linarith [a.1, a.2, d.1, d.2]

end

/-! ### The results exist -/

section
variable {ι κ α : Type} [Fintype ι] [DecidableEq ι] [Field α] [LinearOrder α] [IsStrictOrderedRing α]

/-- C156: in every arithmetic and for every method there are such ranges and scores, for the networks that the rounded model covers. -/
theorem C156_exists [Finite κ] (rd rm cv : α → α) (method : Method) (eps : α) (sl : Slope) (bn : α) (hbn : 0 ≤ bn) (bs : List (BoxOf ι α)) (n : Net α ι κ)
    (hn : n.WF) (hf : n.Plain) (hm : n.NoMultiply) (hp : method.isCrown = true → n.PlainBack) :
    (∀ k, ∃ U L, n.RangeOver rd rm cv method eps sl bn bs k U L) ∧ ∀ T c, ∃ R, n.AdvOver rd rm cv method eps sl bn bs T c R := by
  have clone : ∀ b, ∃ g, n.CloneRounded rm method eps sl bn b g := by
    intro b
    cases method with
    | crown =>
      obtain ⟨u, l, h⟩ := (C152_exists rm eps sl bn hbn b n hn (hp rfl)).1
      exact ⟨⟨b, u, fun _ _ => 0, fun _ => 0, l, fun _ _ => 0, fun _ => 0, fun _ => 0, fun _ => 0⟩, h⟩
    | crownForwardIbp => exact (C154_exists rm .ibp eps sl bn hbn b n hn hf hm (hp rfl)).1
    | crownForwardAffine => exact (C154_exists rm .affine eps sl bn hbn b n hn hf hm (hp rfl)).1
    | crownForwardHybrid => exact (C154_exists rm .hybrid eps sl bn hbn b n hn hf hm (hp rfl)).1
    | forwardIbp => exact C153_exists rm .ibp eps sl bn hbn _ n hn hf hm
    | forwardAffine => exact C153_exists rm .affine eps sl bn hbn _ n hn hf hm
    | forwardHybrid => exact C153_exists rm .hybrid eps sl bn hbn _ n hn hf hm
  have all : ∀ {β : Type} {P : BoxOf ι α → β → Prop}, (∀ b, ∃ r, P b r) → ∀ l : List (BoxOf ι α), ∃ rs, List.Forall₂ P l rs := by
    intro β P h l
    induction l with
    | nil => exact ⟨[], .nil⟩
    | cons b l ih => exact (h b).elim fun r hr => ih.elim fun rs hrs => ⟨r :: rs, .cons hr hrs⟩
  have rng : ∀ (b : BoxOf ι α) (g : Full (BoxOf ι α) ι κ α) k, ∃ U L, RangeRounded rd b g k U L := fun b g k => by
    obtain ⟨U, hU⟩ := exists_sum2 rd (fun i => b.2 i * max 0 (g.wu i k)) (fun i => b.1 i * min 0 (g.wu i k)) fun x y => rd (rd (x + y) + g.bu k)
    obtain ⟨L, hL⟩ := exists_sum2 rd (fun i => b.1 i * max 0 (g.wl i k)) (fun i => b.2 i * min 0 (g.wl i k)) fun x y => rd (rd (x + y) + g.bl k)
    exact ⟨U, L, hU, hL⟩
  constructor
  · intro k
    have : ∀ b, ∃ r : α × α, ∃ g, n.CloneRounded rm method eps sl bn (castBox cv b) g ∧ RangeMode rd method.outMode b g k r.1 r.2 := by
      intro b
      obtain ⟨g, hg⟩ := clone (castBox cv b)
      obtain ⟨U, L, h⟩ := rng b g k
      cases hM : method.outMode with
      | ibp => exact ⟨(_, _), g, hg, rfl, rfl⟩
      | affine => exact ⟨(U, L), g, hg, h⟩
      | hybrid => exact ⟨(_, _), g, hg, U, L, h, rfl, rfl⟩
    exact (all this bs).elim fun rs hrs => ⟨_, _, rs, hrs, rfl, rfl⟩
  · intro T c
    have : ∀ b, ∃ r, ∃ g, n.CloneRounded rm method eps sl bn (castBox cv b) g ∧ AdvMode rd method.outMode (castBox cv b) g T c r := by
      intro b
      obtain ⟨g, hg⟩ := clone (castBox cv b)
      choose s hs using fun j => exists_sum2 rd (fun i => (castBox cv b).2 i * max 0 (rd (g.wu i j - g.wl i c)))
        (fun i => (castBox cv b).1 i * min 0 (rd (g.wu i j - g.wl i c))) fun x y => rd (rd (x + y) + rd (g.bu j - g.bl c))
      obtain ⟨R2, h2⟩ := Finite.exists_le s
      obtain ⟨R1, h1⟩ := Finite.exists_le fun j => rd (g.uc j - g.lc c)
      cases hM : method.outMode with
      | ibp => exact ⟨R1, g, hg, fun j _ => h1 j⟩
      | affine => exact ⟨R2, g, hg, fun j _ => ⟨s j, hs j, h2 j⟩⟩
      | hybrid => exact ⟨_, g, hg, R1, R2, fun j _ => h1 j, fun j _ => ⟨s j, hs j, h2 j⟩, rfl⟩
    exact (all this bs).elim fun rs hrs => ⟨_, rs, hrs, rfl⟩

end

/-! ### The outputs before the conversion are not enclosed -/

/-- `2 ^ 25 + 1` is a `float64`. -/
theorem double_keeps : roundNearest 53 33554433 = 33554433 := by
  have h := roundPos_fix 52 (33554433 * 2 ^ 27) (-27) (by norm_num) (by norm_num)
  have e : ((33554433 * 2 ^ 27 : ℤ) : ℚ) * (2 : ℚ) ^ (-27 : ℤ) = 33554433 := by push_cast; norm_num
  rw [e] at h
  rw [roundNearest, if_pos (by norm_num), h]

/-- C156: the ranges are about the points as the model receives them.  For a box of `float64` numbers they need not enclose the outputs at the points of the
box themselves: the identity on the box `{2 ^ 25 + 1}` has the range `{2 ^ 25}`, and the slack is zero. -/
theorem C156_unconverted_refuted :
    ¬ ∀ (n : Net ℚ (Fin 1) (Fin 1)) (b : BoxOf (Fin 1) ℚ) (U L : ℚ), InFormat (roundNearest 53) b → GoodBox b → n.WF →
      n.RangeOver (roundNearest 53) (roundNearest 24) (roundNearest 24) .forwardIbp (1 / 10000000) .vSlope 0 (refineRounded (roundNearest 53) 1 b) 0 U L →
      ∀ p ∈ Box b.1 b.2, n.eval p 0 ≤ U + n.cloneRangeSlack .forwardIbp ((1 / 2) ^ 24) (1 / 10000000) 0 (boxPeak (castBox (roundNearest 24) b)) 0 := by
  intro h
  have := h .input (fun _ => 33554433, fun _ => 33554433) 33554432 33554432 (fun _ => ⟨double_keeps, double_keeps⟩) (fun _ => le_rfl) trivial
    ⟨[(33554432, 33554432)], .cons ⟨_, rfl, ?_⟩ .nil, by simp [listMax], by simp [listMin]⟩ (fun _ => 33554433) (fun _ => ⟨le_rfl, le_rfl⟩)
  · simp only [Net.eval, Net.cloneRangeSlack, Net.cloneErr, Net.modeErr, ModeErr.cast, ModeErr.readSlack, Method.outMode] at this
    norm_num at this
  · simp [RangeMode, Method.outMode, inputTensorsBox, getIbp, castBox, float_absorb]

/-! ### Concrete cases -/

/-- Numbers with three binary digits after the point, rounded down: a format of the theorems on sub-boxes. -/
def fixedPoint (x : ℚ) : ℚ := ⌊8 * x⌋ / 8

theorem fixedPoint_binary : Binary fixedPoint := by
  have key : ∀ z : ℤ, fixedPoint ((z : ℚ) / 8) = z / 8 := fun z => by
    rw [fixedPoint, show 8 * ((z : ℚ) / 8) = z by ring, Int.floor_intCast]
  refine ⟨fun x y h => ?_, fun x => key _, fun x hx => ?_⟩
  · have : (⌊8 * x⌋ : ℚ) ≤ ⌊8 * y⌋ := by exact_mod_cast Int.floor_mono (by linarith)
    unfold fixedPoint; linarith
  · have e : 2 * x = ((2 * ⌊8 * x⌋ : ℤ) : ℚ) / 8 := by
      push_cast
      linarith [show (⌊8 * x⌋ : ℚ) / 8 = x from hx]
    rw [e]
    exact key _

/-- C156: the box `[0, 3/8]²` in four: the middle of `[0, 3/8]` is rounded down to `1/8`. -/
example : (refineRounded (n := 1) fixedPoint 4 (![0, 0], ![3 / 8, 3 / 8])).map (fun c => (c.1 0, c.2 0, c.1 1, c.2 1)) =
    [(0, 1 / 8, 0, 1 / 8), (1 / 8, 3 / 8, 0, 1 / 8), (0, 1 / 8, 1 / 8, 3 / 8), (1 / 8, 3 / 8, 1 / 8, 3 / 8)] := by decide +kernel

/-- C156: `refine_box` in three: the second cut is along the other coordinate of the first half. -/
example : (refineBoxRounded (n := 1) fixedPoint 3 (![0, 0], ![3 / 8, 3 / 8])).map (fun c => (c.1 0, c.2 0, c.1 1, c.2 1)) =
    [(0, 1 / 8, 0, 1 / 8), (1 / 8, 3 / 8, 0, 3 / 8), (0, 1 / 8, 1 / 8, 3 / 8)] := by decide +kernel

/-- C156: every point is in one of them, and they are in the box. -/
example (p : Fin 2 → ℚ) (hp : p ∈ Box ![0, 0] ![(3 / 8 : ℚ), 3 / 8]) :
    (∃ c ∈ refineRounded fixedPoint 4 (![0, 0], ![3 / 8, 3 / 8]), p ∈ Box c.1 c.2) ∧
      ∃ c ∈ refineBoxRounded fixedPoint 3 (![0, 0], ![3 / 8, 3 / 8]), p ∈ Box c.1 c.2 :=
  ⟨C156_covers fixedPoint 4 (![0, 0], ![3 / 8, 3 / 8]) p hp, C156_refine_box_covers fixedPoint 3 (![0, 0], ![3 / 8, 3 / 8]) p hp⟩

example : (∀ c ∈ refineRounded (n := 1) fixedPoint 4 (![0, 0], ![3 / 8, 3 / 8]), SubBox c (![0, 0], ![3 / 8, 3 / 8])) ∧
    ∀ c ∈ refineBoxRounded (n := 1) fixedPoint 3 (![0, 0], ![3 / 8, 3 / 8]), SubBox c (![0, 0], ![3 / 8, 3 / 8]) := by
  have g : GoodBox (α := ℚ) (ι := Fin 2) (![0, 0], ![3 / 8, 3 / 8]) := by unfold GoodBox; decide +kernel
  have f : InFormat (ι := Fin 2) fixedPoint (![0, 0], ![3 / 8, 3 / 8]) := by unfold InFormat; decide +kernel
  exact ⟨fun c hc => (C156_inside fixedPoint fixedPoint_binary 4 _ g f c hc).2.2,
    fun c hc => (C156_refine_box_inside fixedPoint fixedPoint_binary 3 _ g f c hc).2.2⟩

/-- C156: a rounding that is not binary can leave the box: with two decimal digits, the middle of `[0.53, 0.54]` is `0.55`. -/
example : ∃ rd : ℚ → ℚ, Monotone rd ∧ (∀ x, rd (rd x) = rd x) ∧ rd (53 / 100) = 53 / 100 ∧ rd (54 / 100) = 54 / 100 ∧
    54 / 100 < midRounded rd (fun _ : Unit => 53 / 100, fun _ => 54 / 100) () := by
  refine ⟨fun x => if x < 1 then ⌈100 * x⌉ / 100 else ⌈10 * x⌉ / 10, fun x y h => ?_, fun x => ?_, by norm_num, by norm_num, by norm_num [midRounded]⟩
  · have m : ∀ {a b : ℚ}, a ≤ b → (⌈a⌉ : ℚ) ≤ ⌈b⌉ := fun h => by exact_mod_cast Int.ceil_mono h
    dsimp only
    split_ifs with h1 h2 h2
    · have := m (show 100 * x ≤ 100 * y by linarith); linarith
    · have a := m (show 100 * x ≤ ((100 : ℤ) : ℚ) by push_cast; linarith)
      have b := m (show ((10 : ℤ) : ℚ) ≤ 10 * y by push_cast; linarith)
      rw [Int.ceil_intCast] at a b
      push_cast at a b
      linarith
    · linarith
    · have := m (show 10 * x ≤ 10 * y by linarith); linarith
  · dsimp only
    by_cases h1 : x < 1
    · rw [if_pos h1]
      by_cases h2 : (⌈100 * x⌉ : ℚ) / 100 < 1
      · rw [if_pos h2, mul_div_cancel₀ _ (by norm_num), Int.ceil_intCast]
      · rw [if_neg h2]
        have a : ⌈100 * x⌉ ≤ 100 := Int.ceil_le.2 (by push_cast; linarith)
        have b : (⌈100 * x⌉ : ℚ) ≤ 100 := by exact_mod_cast a
        have e : (⌈100 * x⌉ : ℚ) = 100 := by linarith
        rw [e]; norm_num
    · have a : ((10 : ℤ) : ℚ) ≤ ⌈10 * x⌉ := by
        have : (10 : ℤ) ≤ ⌈10 * x⌉ := by
          have := Int.ceil_mono (show ((10 : ℤ) : ℚ) ≤ 10 * x by push_cast; linarith)
          rwa [Int.ceil_intCast] at this
        exact_mod_cast this
      push_cast at a
      rw [if_neg h1, if_neg (by linarith), mul_div_cancel₀ _ (by norm_num), Int.ceil_intCast]

theorem double_half : roundNearest 53 (1 / 2) = 1 / 2 := by
  have h := roundPos_fix 52 (2 ^ 52) (-53) (by norm_num) (by norm_num)
  have e : ((2 ^ 52 : ℤ) : ℚ) * (2 : ℚ) ^ (-53 : ℤ) = 1 / 2 := by push_cast; norm_num
  rw [e] at h
  rw [roundNearest, if_pos (by norm_num), h]

theorem single_half : roundNearest 24 (1 / 2) = 1 / 2 := by simpa using float_pow (-1)

theorem round_zero (p : ℕ) : roundNearest p 0 = 0 := by simp [roundNearest]

theorem double_error : RelError (roundNearest 53) ((1 / 2) ^ 24) := fun x =>
  (C118_float_error 53 x).trans (mul_le_mul_of_nonneg_right (by norm_num) (abs_nonneg x))

theorem half_box : castBox (roundNearest 24) ((fun _ => 0, fun _ => 1 / 2) : BoxOf (Fin 2) ℚ) = (fun _ => 0, fun _ => 1 / 2) := by
  simp only [castBox, single_half, round_zero]

/-- C156: two classes on the box `[0, 1/2]²`, cut into sub-boxes in float64, with a model in float32, any method: the ranges miss the exact outputs by at most
`1e-4`. -/
example (method : Method) (sl : Slope) (nSub : ℕ) (k : Fin 2) (U L : ℚ)
    (hr : twoClassNet.RangeOver (roundNearest 53) (roundNearest 24) (roundNearest 24) method (1 / 10000000) sl 0
      (refineRounded (roundNearest 53) nSub (fun _ => 0, fun _ => 1 / 2)) k U L) (p : Fin 2 → ℚ) (hp : p ∈ Box (fun _ => 0) fun _ => (1 / 2 : ℚ)) :
    L - 1 / 10000 ≤ twoClassNet.eval (fun i => roundNearest 24 (p i)) k ∧ twoClassNet.eval (fun i => roundNearest 24 (p i)) k ≤ U + 1 / 10000 := by
  have a := C156_range_box (δ := (1 / 2) ^ 24) (by norm_num) (by norm_num) double_error (C156_format 53 (by norm_num)).1 (C118_float_error 24)
    (C156_format 24 (by norm_num)).2 method (1 / 10000000) (by norm_num) sl 0 le_rfl nSub (fun _ => 0, fun _ => 1 / 2) (fun _ => by norm_num)
    (fun _ => ⟨round_zero 53, double_half⟩) twoClassNet (by simp [twoClassNet, Net.WF, Lay.WF]) (fun _ => by simp [twoClassNet, Net.Chain]) k U L hr p hp
  rw [half_box] at a
  have e : twoClassNet.cloneRangeSlack method ((1 / 2) ^ 24) (1 / 10000000) 0 (boxPeak (ι := Fin 2) (fun _ => 0, fun _ => 1 / 2)) k ≤ 1 / 10000 := by
    clear a hr
    revert k
    cases method <;> decide +kernel
  constructor <;> linarith [a.1, a.2]

/-- C156: the same at the points of the box before the conversion, with the slack of the conversion. -/
example (method : Method) (sl : Slope) (nSub : ℕ) (k : Fin 2) (U L : ℚ)
    (hr : twoClassNet.RangeOver (roundNearest 53) (roundNearest 24) (roundNearest 24) method (1 / 10000000) sl 0
      (refineRounded (roundNearest 53) nSub (fun _ => 0, fun _ => 1 / 2)) k U L) (p : Fin 2 → ℚ) (hp : p ∈ Box (fun _ => 0) fun _ => (1 / 2 : ℚ)) :
    L - 1 / 10000 ≤ twoClassNet.eval p k ∧ twoClassNet.eval p k ≤ U + 1 / 10000 := by
  have a := C156_unconverted (δ := (1 / 2) ^ 24) (by norm_num) (by norm_num) double_error (C156_format 53 (by norm_num)).1 (C118_float_error 24)
    (C156_format 24 (by norm_num)).2 method (1 / 10000000) (by norm_num) sl 0 le_rfl 1 one_pos nSub (fun _ => 0, fun _ => 1 / 2) (fun _ => by norm_num)
    (fun _ => ⟨round_zero 53, double_half⟩) twoClassNet (by simp [twoClassNet, Net.WF, Lay.WF]) (fun _ => by simp [twoClassNet, Net.Chain])
    (by simp [twoClassNet, Net.SdAbove, Lay.SdAbove]) k U L hr p hp
  rw [half_box] at a
  have e : twoClassNet.cloneRangeSlack method ((1 / 2) ^ 24) (1 / 10000000) 0 (boxPeak (ι := Fin 2) (fun _ => 0, fun _ => 1 / 2)) k +
      twoClassNet.slackWith (noError ℚ) 1 (fun i => (1 + (1 / 2) ^ 24) * boxPeak (ι := Fin 2) (fun _ => 0, fun _ => 1 / 2) i)
        (fun i => (1 / 2) ^ 24 * boxPeak (ι := Fin 2) (fun _ => 0, fun _ => 1 / 2) i) k ≤ 1 / 10000 := by
    clear a hr
    revert k
    cases method <;> decide +kernel
  constructor <;> linarith [a.1, a.2]

/-- C156: a score of `get_adv_box` below `-1e-4` certifies the order of the outputs that Keras computes in float32, for every number of sub-boxes. -/
example (method : Method) (sl : Slope) (nSub : ℕ) (R : ℚ)
    (hR : twoClassNet.AdvOver (roundNearest 53) (roundNearest 24) (roundNearest 24) method (1 / 10000000) sl 0
      (refineRounded (roundNearest 53) nSub (fun _ => 0, fun _ => 1 / 2)) {1} 0 R) (hc : R < -(1 / 10000)) (p : Fin 2 → ℚ)
    (hp : p ∈ Box (fun _ => 0) fun _ => (1 / 2 : ℚ)) (v : Fin 2 → ℚ)
    (hv : twoClassNet.RoundedCall (roundNearest 24) (fun _ _ _ _ _ => 0) (fun i => roundNearest 24 (p i)) v) : v 1 < v 0 := by
  refine C156_adv_certificate (δ := (1 / 2) ^ 24) (by norm_num) (by norm_num) double_error (C156_format 53 (by norm_num)).1 (C118_float_error 24)
    (C156_format 24 (by norm_num)).2 method (1 / 10000000) (by norm_num) sl 0 le_rfl (fun _ _ _ _ _ => 0) (fun _ _ _ _ _ => le_rfl)
    (fun _ _ _ _ _ _ _ _ => le_rfl) 1 one_pos nSub (fun _ => 0, fun _ => 1 / 2) (fun _ => by norm_num) (fun _ => ⟨round_zero 53, double_half⟩) twoClassNet
    (by simp [twoClassNet, Net.WF, Lay.WF]) (fun _ => by simp [twoClassNet, Net.Chain]) (by simp [twoClassNet, Net.SdAbove, Lay.SdAbove]) {1} 0 R hR ?_ p hp v hv
    1 rfl
  rintro j rfl
  rw [half_box]
  refine lt_of_lt_of_le hc ?_
  clear hR hv hp hc
  cases method <;> decide +kernel

/-- C156: an upper bound below `1` by `1e-3` of the second output keeps what Keras computes below `1`. -/
example (method : Method) (sl : Slope) (nSub : ℕ) (U L : ℚ)
    (hr : twoClassNet.RangeOver (roundNearest 53) (roundNearest 24) (roundNearest 24) method (1 / 10000000) sl 0
      (refineRounded (roundNearest 53) nSub (fun _ => 0, fun _ => 1 / 2)) 1 U L) (hU : U ≤ 999 / 1000) (p : Fin 2 → ℚ)
    (hp : p ∈ Box (fun _ => 0) fun _ => (1 / 2 : ℚ)) (v : Fin 2 → ℚ)
    (hv : twoClassNet.RoundedCall (roundNearest 24) (fun _ _ _ _ _ => 0) (fun i => roundNearest 24 (p i)) v) : v 1 < 1 := by
  refine (C156_range_certificate (δ := (1 / 2) ^ 24) (by norm_num) (by norm_num) double_error (C156_format 53 (by norm_num)).1 (C118_float_error 24)
    (C156_format 24 (by norm_num)).2 method (1 / 10000000) (by norm_num) sl 0 le_rfl (fun _ _ _ _ _ => 0) (fun _ _ _ _ _ => le_rfl)
    (fun _ _ _ _ _ _ _ _ => le_rfl) 1 one_pos nSub (fun _ => 0, fun _ => 1 / 2) (fun _ => by norm_num) (fun _ => ⟨round_zero 53, double_half⟩) twoClassNet
    (by simp [twoClassNet, Net.WF, Lay.WF]) (fun _ => by simp [twoClassNet, Net.Chain]) (by simp [twoClassNet, Net.SdAbove, Lay.SdAbove]) 1 U L 1 hr p hp v
    hv).1 ?_
  rw [half_box]
  refine lt_of_le_of_lt (add_le_add hU le_rfl) ?_
  clear hr hv hp hU
  cases method <;> decide +kernel

/-- C156: and there are such ranges and scores. -/
example (method : Method) (sl : Slope) (nSub : ℕ) :
    (∃ U L, twoClassNet.RangeOver (roundNearest 53) (roundNearest 24) (roundNearest 24) method (1 / 10000000) sl 0
      (refineRounded (roundNearest 53) nSub (fun _ => 0, fun _ => 1 / 2)) 1 U L) ∧
    ∃ R, twoClassNet.AdvOver (roundNearest 53) (roundNearest 24) (roundNearest 24) method (1 / 10000000) sl 0
      (refineRounded (roundNearest 53) nSub (fun _ => 0, fun _ => 1 / 2)) {1} 0 R := by
  have a := C156_exists (roundNearest 53) (roundNearest 24) (roundNearest 24) method (1 / 10000000) sl 0 le_rfl
    (refineRounded (roundNearest 53) nSub (fun _ => 0, fun _ => 1 / 2)) twoClassNet (by simp [twoClassNet, Net.WF, Lay.WF])
    (by simp [twoClassNet, Net.Plain, Lay.Plain]) (by simp [twoClassNet, Net.NoMultiply]) (fun _ => by simp [twoClassNet, Net.PlainBack])
  exact ⟨a.1 1, a.2 {1} 0⟩

end Decomon
