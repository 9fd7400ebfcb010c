import Verif.SpecAny
import Verif.Lemmas.IbpNet
import Verif.Props.BackAct
import Verif.Lemmas.Exact

/-! Helper lemmas: forward propagation in every mode through networks of all the layers. -/

namespace Decomon

section
variable {X ι κ : Type}

theorem SmoothAct.forwardIn_x (D : PertDomain X ι ℝ) (m : Mode) (eps : ℝ) (s : Slope) (a : SmoothAct) (f : Full X ι κ ℝ) :
    (a.forwardIn D m eps s f).x = f.x := by
  cases a <;> simp [SmoothAct.forwardIn, sShapeT, expT, softplusT]

theorem NaryOp.forwardIn_x (D : PertDomain X ι ℝ) (m : Mode) (eps : ℝ) (op : NaryOp) (f0 : Full X ι κ ℝ) (fs : List (Full X ι κ ℝ)) (x : X)
    (h0 : f0.x = x) (h : ∀ f ∈ fs, f.x = x) : (op.forwardIn D m eps f0 fs).x = x := by
  have hmax : ∀ a b : Full X ι κ ℝ, a.x = x → b.x = x → (maximumT D m false eps (fun _ => 1) a b).x = x := by
    intro a b _ hb
    simpa [maximumT, addT, reluT, subtractT] using hb
  cases op with
  | add => exact h0
  | average => exact h0
  | maximum => exact foldl_x _ x hmax fs f0 h0 h
  | minimum =>
    cases fs with
    | nil => exact h0
    | cons a t =>
      have := foldl_x _ x hmax ((a :: t).map (minusT D m)) (minusT D m f0) (by simpa [minusT] using h0) (by
        intro b hb
        obtain ⟨c, hc, rfl⟩ := List.mem_map.1 hb
        simpa [minusT] using h c hc)
      simpa [NaryOp.forwardIn, minimumLayerT, maximumLayerT, minusT] using this
  | multiply => exact foldl_x _ x (fun a b ha _ => by simpa [multiplyT] using ha) fs f0 h0 h

theorem RNet.forwardIn_x (D : PertDomain X ι ℝ) (m : Mode) (eps : ℝ) (slope : Slope) (inp : Full X ι ι ℝ) {κ : Type} (n : RNet ι κ) :
    (n.forwardIn D m eps slope inp).x = inp.x := by
  induction n with
  | input => rfl
  | layer n l ih => simp only [RNet.forwardIn, Lay.forward_x, ih]
  | act a n ih => simp only [RNet.forwardIn, SmoothAct.forwardIn_x, ih]
  | pool win hw n ih => simpa [RNet.forwardIn, maxPoolFastT] using ih
  | merge op r n0 ns ih0 ih =>
    refine NaryOp.forwardIn_x D m eps op _ _ _ ih0 fun f hf => ?_
    obtain ⟨i, rfl⟩ := List.mem_ofFn.1 hf
    exact ih i
  | subtract n0 n1 ih0 _ => simpa [RNet.forwardIn, subtractT, addT] using ih0
  | concat j0 ns ih => simpa [RNet.forwardIn, concatLayerT] using ih j0
  | dot e0 e1 n0 n1 ih0 _ => simpa [RNet.forwardIn, dotLayerT, sumT, multiplyT, Full.reindex] using ih0

/-! ### ibp mode -/

theorem RNet.forwardIn_ibp (D : PertDomain X ι ℝ) (eps : ℝ) (slope : Slope) (inp : Full X ι ι ℝ) {κ : Type} (n : RNet ι κ) :
    n.forwardIn D .ibp eps slope inp = n.forward D eps slope inp := by
  induction n with
  | input => rfl
  | layer n l ih => simp only [RNet.forwardIn, RNet.forward, ih]
  | act a n ih =>
    simp only [RNet.forwardIn, RNet.forward, ih]
    cases a <;> simp [SmoothAct.forwardIn, SmoothAct.forward, softplusT, softplusIbpT, getAffine]
  | pool win hw n ih => simp only [RNet.forwardIn, RNet.forward, ih]
  | merge op r n0 ns ih0 ih =>
    simp only [RNet.forwardIn, RNet.forward, ih0, ih]
    cases op <;> rfl
  | subtract n0 n1 ih0 ih1 => simp only [RNet.forwardIn, RNet.forward, ih0, ih1]
  | concat j0 ns ih => simp only [RNet.forwardIn, RNet.forward, ih]
  | dot e0 e1 n0 n1 ih0 ih1 => simp only [RNet.forwardIn, RNet.forward, ih0, ih1]

theorem RNet.good_ibp [Fintype ι] (D : PertDomain X ι ℝ) (eps : ℝ) (slope : Slope) (inp : Full X ι ι ℝ) {κ : Type} (n : RNet ι κ) :
    n.Good D .ibp eps slope inp := by
  induction n with
  | input => trivial
  | layer n l ih => exact ⟨ih, by cases l <;> simp [Lay.SliverOK, SliverFree, getAffine]⟩
  | act a n ih => exact ⟨ih, by simp [getAffine]⟩
  | pool win hw n ih => exact ih
  | merge op r n0 ns ih0 ih =>
    refine ⟨ih0, ih, ?_⟩
    cases op <;> first | trivial | exact foldSliverFree_ibp D eps _ _
  | subtract n0 n1 ih0 ih1 => exact ⟨ih0, ih1⟩
  | concat j0 ns ih => exact ih
  | dot e0 e1 n0 n1 ih0 ih1 => exact ⟨ih0, ih1⟩

/-! ### Soundness -/

theorem sShapeT_valid [Fintype ι] {f f' : ℝ → ℝ} (S : SShaped f f') (D : PertDomain X ι ℝ) (m : Mode) (eps : ℝ) (he : 0 < eps)
    (inp : Full X ι κ ℝ) (R : Set (ι → ℝ)) (hD : D.Sound inp.x R) (p : ι → ℝ) (hp : p ∈ R) (y : κ → ℝ) (v : Valid m false inp p y)
    (hs : getAffine m = true → ∀ k, OneSided eps ((inp.tighten D m true true).lc k) ((inp.tighten D m true true).uc k)) :
    Valid m false (sShapeT D m eps f f' inp) p (fun k => f (y k)) := by
  have hc := tighten_const D m false inp R hD p hp y v
  refine C18_layer_valid_partial S D m eps he inp R hD p hp y v fun ha k => ?_
  have h := hs ha k
  have hlu := (hc k).1.trans (hc k).2
  generalize (inp.tighten D m true true).lc k = l at *
  generalize (inp.tighten D m true true).uc k = u at *
  dsimp only
  rcases h with rfl | ⟨hd, h⟩
  · refine ⟨.inr rfl, .inl ?_, .inl ?_⟩ <;> simp [(S.pos l).le]
  · have hlt : l < u := by linarith
    refine ⟨.inl hd, ?_, ?_⟩
    · rcases h with h | h
      · exact .inr h
      · exact .inl (coeff_le_right S he hlt h.le)
    · rcases h with h | h
      · exact .inl (coeff_le_left S he hlt h.le)
      · exact .inr h

theorem SmoothAct.forwardIn_valid [Fintype ι] (D : PertDomain X ι ℝ) (m : Mode) (eps : ℝ) (he : 0 < eps) (s : Slope) (a : SmoothAct)
    (f : Full X ι κ ℝ) (R : Set (ι → ℝ)) (hD : D.Sound f.x R) (p : ι → ℝ) (hp : p ∈ R) (y : κ → ℝ) (v : Valid m false f p y)
    (hs : getAffine m = true → ∀ k, a.GoodOn eps ((f.tighten D m true true).lc k) ((f.tighten D m true true).uc k)) :
    Valid m false (a.forwardIn D m eps s f) p (fun k => a.eval (y k)) := by
  cases a with
  | sigmoid =>
    have := sShapeT_valid sshaped_sigmoid D m eps he f R hD p hp y v hs
    simpa [SmoothAct.forwardIn, SmoothAct.eval, Real.sigmoid] using this
  | tanh => exact sShapeT_valid sshaped_tanh D m eps he f R hD p hp y v hs
  | softsign => exact sShapeT_valid sshaped_softsign D m eps he f R hD p hp y v hs
  | exponential =>
    refine C21_exp_valid_partial D m eps he f R hD p hp y v fun ha k hc => ?_
    rcases hs ha k with h | h
    · exact absurd h hc.1.ne
    · exact absurd h (not_le.2 hc.2)
  | softplus =>
    have hc := tighten_const D m false f R hD p hp y v
    exact ⟨fun _ k => ⟨softplus_mono (hc k).1, softplus_mono (hc k).2⟩, fun ha k => (hs ha k).elim, by simp⟩

theorem NaryOp.forwardIn_valid [Fintype ι] (D : PertDomain X ι ℝ) (m : Mode) (eps : ℝ) (he : 0 < eps) (op : NaryOp) {r : ℕ}
    (f0 : Full X ι κ ℝ) (fs : Fin r → Full X ι κ ℝ) (R : Set (ι → ℝ)) (p : ι → ℝ) (hp : p ∈ R) (y0 : κ → ℝ) (ys : Fin r → κ → ℝ)
    (h0 : D.Sound f0.x R) (h : ∀ i, D.Sound (fs i).x R) (v0 : Valid m false f0 p y0) (v : ∀ i, Valid m false (fs i) p (ys i))
    (hmax : op = .maximum → FoldSliverFree D m eps f0 (List.ofFn fs))
    (hmin : op = .minimum → FoldSliverFree D m eps (minusT D m f0) ((List.ofFn fs).map (minusT D m))) :
    Valid m false (op.forwardIn D m eps f0 (List.ofFn fs)) p (fun k => op.eval (y0 k) fun i => ys i k) := by
  have hf : List.Forall₂ (fun f y => D.Sound f.x R ∧ Valid m false f p y) (List.ofFn fs) (List.ofFn ys) :=
    forall₂_ofFn _ _ _ fun i => ⟨h i, v i⟩
  have hm : ∀ k, (List.ofFn ys).map (fun y => y k) = List.ofFn fun i => ys i k := fun k => by simp [List.map_ofFn, Function.comp_def]
  cases op with
  | add =>
    have := C14_add_valid D m f0 _ R p hp y0 _ h0 v0 hf
    simpa only [NaryOp.forwardIn, NaryOp.eval, List.map_cons, List.sum_cons, hm, List.sum_ofFn] using this
  | average =>
    have := C14_average_valid D m f0 _ R p hp y0 _ h0 v0 hf
    simpa only [NaryOp.forwardIn, NaryOp.eval, List.map_cons, List.sum_cons, hm, List.sum_ofFn, List.length_cons, List.length_ofFn,
      Nat.cast_add, Nat.cast_one] using this
  | maximum =>
    have := C14_maximum_valid_partial D m eps he R p hp f0 _ y0 _ h0 v0 hf (hmax rfl)
    simpa only [NaryOp.forwardIn, NaryOp.eval, hm, fold_ofFn] using this
  | minimum =>
    have := C14_minimum_valid_partial D m eps he R p hp f0 _ y0 _ h0 v0 hf (hmin rfl)
    simpa only [NaryOp.forwardIn, NaryOp.eval, hm, fold_ofFn] using this
  | multiply =>
    have := C14_multiply_valid D m R p hp f0 _ y0 _ h0 v0 hf
    simpa only [NaryOp.forwardIn, NaryOp.eval, hm, List.prod_ofFn] using this

theorem RNet.forwardIn_valid [Fintype ι] (D : PertDomain X ι ℝ) (m : Mode) (eps : ℝ) (he : 0 < eps) (slope : Slope) (inp : Full X ι ι ℝ)
    (R : Set (ι → ℝ)) (hD : D.Sound inp.x R) (p : ι → ℝ) (hp : p ∈ R) (hi : Valid m false inp p p) {κ : Type} (n : RNet ι κ)
    (hn : n.WF) (hg : n.Good D m eps slope inp) : Valid m false (n.forwardIn D m eps slope inp) p (n.eval p) := by
  have hx : ∀ {κ : Type} (n : RNet ι κ), D.Sound (n.forwardIn D m eps slope inp).x R := fun n => by rw [RNet.forwardIn_x]; exact hD
  induction n with
  | input => exact hi
  | layer n l ih => exact Lay.forward_valid D m eps he slope l hn.2 _ R (hx n) hg.2 p hp _ (ih hn.1 hg.1)
  | act a n ih => exact SmoothAct.forwardIn_valid D m eps he slope a _ R (hx n) p hp _ (ih hn hg.1) hg.2
  | pool win hw n ih =>
    refine C15_maxpool_fast_valid D m win hw _ R (hx n) p hp _ (ih hn hg) _ fun k => ⟨?_, fun j hj => Finset.le_sup' _ hj⟩
    obtain ⟨j, hj, e⟩ := Finset.exists_mem_eq_sup' (hw k) (n.eval p)
    exact ⟨j, hj, e⟩
  | merge op r n0 ns ih0 ih =>
    refine NaryOp.forwardIn_valid D m eps he op _ _ R p hp _ _ (hx n0) (fun i => hx (ns i)) (ih0 hn.1 hg.1) (fun i => ih i (hn.2 i) (hg.2.1 i))
      ?_ ?_
    · rintro rfl; exact hg.2.2
    · rintro rfl; exact hg.2.2
  | subtract n0 n1 ih0 ih1 => exact C07_subtract_valid D m false _ _ R (hx n0) (hx n1) p hp _ _ (ih0 hn.1 hg.1) (ih1 hn.2 hg.2)
  | concat j0 ns ih => exact C14_concat_valid D m j0 _ R p hp _ (fun j => hx (ns j)) fun j => ih j (hn j) (hg j)
  | dot e0 e1 n0 n1 ih0 ih1 => exact C62_dot_valid D m e0 e1 _ _ R (hx n0) (hx n1) p hp _ _ (ih0 hn.1 hg.1) (ih1 hn.2 hg.2)

/-! ### Hybrid bounds against interval bounds -/

theorem SmoothAct.forwardIn_const (D : PertDomain X ι ℝ) (m : Mode) (hm : getIbp m = true) (eps : ℝ) (s : Slope) (a : SmoothAct)
    (f : Full X ι κ ℝ) (k : κ) :
    ∃ c, (a.forwardIn D m eps s f).lc k = a.eval ((f.tighten D m c true).lc k) ∧
      (a.forwardIn D m eps s f).uc k = a.eval ((f.tighten D m c true).uc k) := by
  cases a
  · exact ⟨false, by simp [SmoothAct.forwardIn, SmoothAct.eval, sShapeT, hm, Real.sigmoid]⟩
  · exact ⟨false, by simp [SmoothAct.forwardIn, SmoothAct.eval, sShapeT, hm]⟩
  · exact ⟨false, by simp [SmoothAct.forwardIn, SmoothAct.eval, sShapeT, hm, Decomon.softsign]⟩
  · exact ⟨true, by simp [SmoothAct.forwardIn, SmoothAct.eval, expT]⟩
  · exact ⟨true, by simp [SmoothAct.forwardIn, SmoothAct.eval, softplusT, Decomon.softplus]⟩

variable {X' : Type}

theorem NaryOp.forwardIn_tighter_sum [Fintype ι] {D : PertDomain X ι ℝ} {m : Mode} (hm : getIbp m = true) {D' : PertDomain X' ι ℝ} (eps : ℝ)
    (op : NaryOp) {r : ℕ} (f0 : Full X ι κ ℝ) (fs : Fin r → Full X ι κ ℝ) (g0 : Full X' ι κ ℝ) (gs : Fin r → Full X' ι κ ℝ)
    (h0 : Tighter f0 g0) (h : ∀ i, Tighter (fs i) (gs i)) (hop : op ≠ .multiply) :
    Tighter (op.forwardIn D m eps f0 (List.ofFn fs)) (op.forward D' eps g0 (List.ofFn gs)) := by
  have t0 := tighter_tighten (D := D) hm false true (D' := D') false true h0
  have t := fun i => tighter_tighten (D := D) hm false true (D' := D') false true (h i)
  simp only [tighten_ibp_eq] at t0 t
  have hsum : ∀ k, (g0.lc k + ∑ i, (gs i).lc k ≤ (f0.tighten D m false true).lc k + ∑ i, ((fs i).tighten D m false true).lc k) ∧
      (f0.tighten D m false true).uc k + ∑ i, ((fs i).tighten D m false true).uc k ≤ g0.uc k + ∑ i, (gs i).uc k :=
    fun k => ⟨add_le_add (t0 k).1 (Finset.sum_le_sum fun i _ => (t i k).1), add_le_add (t0 k).2 (Finset.sum_le_sum fun i _ => (t i k).2)⟩
  have hib : getIbp .ibp = true := rfl
  cases op with
  | add =>
    intro k
    simpa only [NaryOp.forward, NaryOp.forwardIn, addLayerT, hib, hm, if_true, tighten_ibp_eq, List.map_id', List.map_cons, List.sum_cons,
      List.map_ofFn, Function.comp_def, List.sum_ofFn] using hsum k
  | average =>
    intro k
    simp only [NaryOp.forward, NaryOp.forwardIn, averageLayerT, hib, hm, if_true, tighten_ibp_eq, List.map_id', List.map_cons, List.sum_cons,
      List.map_ofFn, Function.comp_def, List.sum_ofFn, List.length_cons, List.length_ofFn]
    exact ⟨by have := (hsum k).1; gcongr, by have := (hsum k).2; gcongr⟩
  | maximum =>
    exact foldl_rel (fun a b => Tighter a b) _ _ (fun a b a' b' h1 h2 => tighter_maximum hm eps _ _ h1 h2) _ _ (forall₂_ofFn _ _ _ h) _ _ h0
  | minimum =>
    have := foldl_rel (fun a b => Tighter a b) (maximumT D m false eps fun _ => 1) (maximumT D' .ibp false eps fun _ => 1)
      (fun a b a' b' h1 h2 => tighter_maximum hm eps _ _ h1 h2) _ _
      (forall₂_ofFn _ (fun i => minusT D m (fs i)) (fun i => minusT D' .ibp (gs i)) fun i => tighter_minus hm (h i)) _ _
      (tighter_minus (D := D) (D' := D') hm h0)
    cases r with
    | zero => simpa [NaryOp.forward, NaryOp.forwardIn, minimumLayerT] using h0
    | succ r =>
      have e := tighter_minus (D := D) (D' := D') hm this
      simpa only [NaryOp.forward, NaryOp.forwardIn, minimumLayerT, maximumLayerT, List.ofFn_succ, List.map_cons, List.map_ofFn,
        Function.comp_def] using e
  | multiply => exact absurd rfl hop

theorem NaryOp.forwardIn_tighter [Fintype ι] {D : PertDomain X ι ℝ} {m : Mode} (hm : getIbp m = true) {D' : PertDomain X' ι ℝ} (eps : ℝ)
    (op : NaryOp) {r : ℕ} (f0 : Full X ι κ ℝ) (fs : Fin r → Full X ι κ ℝ) (g0 : Full X' ι κ ℝ) (gs : Fin r → Full X' ι κ ℝ)
    (h0 : Tighter f0 g0) (h : ∀ i, Tighter (fs i) (gs i)) (R : Set (ι → ℝ)) (p : ι → ℝ) (hp : p ∈ R) (y0 : κ → ℝ) (ys : Fin r → κ → ℝ)
    (d0 : D.Sound f0.x R) (d : ∀ i, D.Sound (fs i).x R) (v0 : Valid m false f0 p y0) (v : ∀ i, Valid m false (fs i) p (ys i)) :
    Tighter (op.forwardIn D m eps f0 (List.ofFn fs)) (op.forward D' eps g0 (List.ofFn gs)) := by
  by_cases hop : op = .multiply
  · subst hop
    refine (foldl_rel (fun a b => Tighter a b ∧ D.Sound a.x R ∧ ∃ y, Valid m false a p y) _ _ (fun a b a' b' h1 h2 => ?_) _ _
      (forall₂_ofFn _ _ _ fun i => ⟨h i, d i, ys i, v i⟩) _ _ ⟨h0, d0, y0, v0⟩).1
    obtain ⟨t1, s1, y1, v1⟩ := h1
    obtain ⟨t2, s2, y2, v2⟩ := h2
    have c1 := tighten_const D m false a R s1 p hp y1 v1
    have c2 := tighten_const D m false b R s2 p hp y2 v2
    exact ⟨tighter_multiply hm t1 t2 (fun k => (c1 k).1.trans (c1 k).2) fun k => (c2 k).1.trans (c2 k).2,
      by simpa [multiplyT] using s1, _, C09_multiply_valid D m a b R s1 s2 p hp y1 y2 v1 v2⟩
  · exact op.forwardIn_tighter_sum hm eps f0 fs g0 gs h0 h hop

theorem RNet.forwardIn_tighter [Fintype ι] {D : PertDomain X ι ℝ} {m : Mode} (hm : getIbp m = true) {D' : PertDomain X' ι ℝ} (eps : ℝ)
    (he : 0 < eps) (s s' : Slope) {inp : Full X ι ι ℝ} {inp' : Full X' ι ι ℝ} (h : Tighter inp inp') (R : Set (ι → ℝ))
    (hD : D.Sound inp.x R) (p : ι → ℝ) (hp : p ∈ R) (hi : Valid m false inp p p) {κ : Type} (n : RNet ι κ) (hn : n.WF)
    (hg : n.Good D m eps s inp) : Tighter (n.forwardIn D m eps s inp) (n.forward D' eps s' inp') := by
  have hx : ∀ {κ : Type} (n : RNet ι κ), D.Sound (n.forwardIn D m eps s inp).x R := fun n => by rw [RNet.forwardIn_x]; exact hD
  have hv : ∀ {κ : Type} (n : RNet ι κ), n.WF → n.Good D m eps s inp → Valid m false (n.forwardIn D m eps s inp) p (n.eval p) :=
    fun n h1 h2 => RNet.forwardIn_valid D m eps he s inp R hD p hp hi n h1 h2
  have hib : getIbp .ibp = true := rfl
  induction n with
  | input => exact h
  | layer n l ih => exact tighter_layer hm eps s s' l hn.2 (ih hn.1 hg.1)
  | act a n ih =>
    intro k
    obtain ⟨c, e1, e2⟩ := a.forwardIn_const D m hm eps s (n.forwardIn D m eps s inp) k
    have t := tighter_tighten (D := D) hm c true (D' := D') c true (ih hn hg.1) k
    rw [tighten_ibp_eq] at t
    simp only [RNet.forwardIn, RNet.forward, e1, e2, (a.forward_const D' eps _ k).1, (a.forward_const D' eps _ k).2]
    exact ⟨a.mono t.1, a.mono t.2⟩
  | pool win hw n ih =>
    intro k
    have t := tighter_tighten (D := D) hm true true (D' := D') true true (ih hn hg)
    rw [tighten_ibp_eq] at t
    simp only [RNet.forwardIn, RNet.forward, maxPoolFastT, tighten_ibp_eq, maxPool]
    exact ⟨Finset.sup'_mono_fun fun j _ => (t j).1, Finset.sup'_mono_fun fun j _ => (t j).2⟩
  | merge op r n0 ns ih0 ih =>
    exact NaryOp.forwardIn_tighter hm eps op _ _ _ _ (ih0 hn.1 hg.1) (fun i => ih i (hn.2 i) (hg.2.1 i)) R p hp _ _ (hx n0)
      (fun i => hx (ns i)) (hv n0 hn.1 hg.1) fun i => hv (ns i) (hn.2 i) (hg.2.1 i)
  | subtract n0 n1 ih0 ih1 => exact tighter_add hm (ih0 hn.1 hg.1) (tighter_minus hm (ih1 hn.2 hg.2))
  | concat j0 ns ih =>
    intro k
    have t := tighter_tighten (D := D) hm false true (D' := D') false true (ih k.1 (hn k.1) (hg k.1))
    rw [tighten_ibp_eq] at t
    simp only [RNet.forwardIn, RNet.forward, concatLayerT, hib, hm, if_true, tighten_ibp_eq]
    exact t k.2
  | @dot _ _ o0 o1 nn _ e0 e1 n0 n1 ih0 ih1 =>
    intro o
    have a := ih0 hn.1 hg.1
    have b := ih1 hn.2 hg.2
    have s0 := hx n0
    have s1 := hx n1
    have v0 := hv n0 hn.1 hg.1
    have v1 := hv n1 hn.2 hg.2
    simp only [RNet.forwardIn, RNet.forward, dotLayerT]
    set f0 := n0.forwardIn D m eps s inp
    set f1 := n1.forwardIn D m eps s inp
    set g0 := n0.forward D' eps s' inp'
    set g1 := n1.forward D' eps s' inp'
    have w0 := valid_reindex_raw m false (fun q : (o0 × o1) × nn => e0 (q.2, q.1.1)) f0 p _ v0
    have w1 := valid_reindex_raw m false (fun q : (o0 × o1) × nn => e1 (q.2, q.1.2)) f1 p _ v1
    have c0 := tighten_const D m false _ R (by simpa [Full.reindex] using s0) p hp _ w0
    have c1 := tighten_const D m false _ R (by simpa [Full.reindex] using s1) p hp _ w1
    have mm := tighter_multiply (D := D) hm (D' := D') (f0 := f0.reindex fun q : (o0 × o1) × nn => e0 (q.2, q.1.1)) (f1 := f1.reindex fun q : (o0 × o1) × nn => e1 (q.2, q.1.2))
      (g0 := g0.reindex fun q : (o0 × o1) × nn => e0 (q.2, q.1.1)) (g1 := g1.reindex fun q : (o0 × o1) × nn => e1 (q.2, q.1.2)) (fun k => a _) (fun k => b _)
      (fun k => (c0 k).1.trans (c0 k).2) (fun k => (c1 k).1.trans (c1 k).2)
    have t := tighter_tighten (D := D) hm false true (D' := D') false true mm
    rw [tighten_ibp_eq] at t
    simp only [sumT, hm, hib, if_true, tighten_ibp_eq]
    exact ⟨Finset.sum_le_sum fun _ _ => (t _).1, Finset.sum_le_sum fun _ _ => (t _).2⟩

/-! ### Bounds on a point -/

theorem sShapeT_exact [Fintype ι] {f f' : ℝ → ℝ} (S : SShaped f f') (D : PertDomain X ι ℝ) (m : Mode) (eps : ℝ) (inp : Full X ι κ ℝ)
    (p : ι → ℝ) (hD : D.Point inp.x p) (y : κ → ℝ) (v : ExactAt m inp p y) : ExactAt m (sShapeT D m eps f f' inp) p (fun k => f (y k)) := by
  have hc := (tighten_exact D m true true inp p hD y v).2 rfl
  have a := (tighten_exact D m false true inp p hD y v).1
  refine ⟨fun hi k => ?_, fun ha k => ?_⟩
  · simp only [sShapeT, hi, if_true, (a.const hi k).1, (a.const hi k).2, and_self]
  · simp only [sShapeT, ha, if_true, (hc k).1, (hc k).2]
    have e : ∀ c d (w : ι → ℝ) b, affEval (fun i => c * w i) (d + c * b) p = c * affEval w b p + d := by
      intro c d w b
      rw [add_comm d, affEval_add_const, affEval_smul]
    rw [e, e, (a.aff ha k).1, (a.aff ha k).2]
    exact sShapeHull_point S eps (y k)

theorem expT_exact [Fintype ι] (D : PertDomain X ι ℝ) (m : Mode) (eps : ℝ) (inp : Full X ι κ ℝ) (p : ι → ℝ) (hD : D.Point inp.x p)
    (y : κ → ℝ) (v : ExactAt m inp p y) : ExactAt m (expT D m eps inp) p (fun k => Real.exp (y k)) := by
  have hc := (tighten_exact D m true true inp p hD y v).2 rfl
  have a := (tighten_exact D m true true inp p hD y v).1
  refine ⟨fun hi k => ?_, fun ha k => ?_⟩
  · simp only [expT, (hc k).1, (hc k).2, and_self]
  · simp only [expT, ha, if_true, (hc k).1, (hc k).2]
    rw [affEval_add_const, affEval_smul, affEval_add_const, affEval_smul, (a.aff ha k).1, (a.aff ha k).2]
    have e2 : (y k + y k) / 2 = y k := by ring
    rw [e2]
    constructor <;> ring

theorem NaryOp.forwardIn_exact [Fintype ι] (D : PertDomain X ι ℝ) (m : Mode) (eps : ℝ) (op : NaryOp) {r : ℕ} (f0 : Full X ι κ ℝ)
    (fs : Fin r → Full X ι κ ℝ) (p : ι → ℝ) (h0 : D.Point f0.x p) (h : ∀ i, D.Point (fs i).x p) (y0 : κ → ℝ) (ys : Fin r → κ → ℝ)
    (v0 : ExactAt m f0 p y0) (v : ∀ i, ExactAt m (fs i) p (ys i)) :
    ExactAt m (op.forwardIn D m eps f0 (List.ofFn fs)) p (fun k => op.eval (y0 k) fun i => ys i k) := by
  have hm : ∀ (ys : Fin r → κ → ℝ) k, (List.ofFn ys).map (fun y => y k) = List.ofFn fun i => ys i k := fun ys k => by
    simp [List.map_ofFn, Function.comp_def]
  have hk : ∀ (g : ℝ → ℝ → ℝ) (l : List (κ → ℝ)) (a : κ → ℝ),
      l.foldl (fun a b k => g (a k) (b k)) a = fun k => (l.map fun y => y k).foldl g (a k) := by
    intro g l
    induction l with
    | nil => intro a; rfl
    | cons b t ih => intro a; simp only [List.foldl_cons, List.map_cons, ih]
  have a0 := (tighten_exact D m false true f0 p h0 y0 v0).1
  have a := fun i => (tighten_exact D m false true (fs i) p (h i) (ys i) (v i)).1
  have hsum : ∀ (w0 : ι → ℝ) (b0 : ℝ) (w : Fin r → ι → ℝ) (b : Fin r → ℝ),
      affEval (fun i => w0 i + ∑ j, w j i) (b0 + ∑ j, b j) p = affEval w0 b0 p + ∑ j, affEval (w j) (b j) p := by
    intro w0 b0 w b
    simp only [affEval, add_mul, Finset.sum_add_distrib, Finset.sum_mul]
    rw [Finset.sum_comm]; ring
  cases op with
  | add =>
    refine ⟨fun hi k => ?_, fun ha k => ?_⟩
    · simp only [NaryOp.forwardIn, NaryOp.eval, addLayerT, hi, if_true, List.map_cons, List.sum_cons, List.map_ofFn,
        Function.comp_def, List.sum_ofFn, (a0.const hi k).1, (a0.const hi k).2, fun i => ((a i).const hi k).1,
        fun i => ((a i).const hi k).2, and_self]
    · simp only [NaryOp.forwardIn, NaryOp.eval, addLayerT, ha, if_true, List.map_cons, List.sum_cons, List.map_ofFn,
        Function.comp_def, List.sum_ofFn]
      rw [hsum, hsum, (a0.aff ha k).1, (a0.aff ha k).2]
      simp only [fun i => ((a i).aff ha k).1, fun i => ((a i).aff ha k).2, and_self]
  | average =>
    refine ⟨fun hi k => ?_, fun ha k => ?_⟩
    · simp only [NaryOp.forwardIn, NaryOp.eval, averageLayerT, hi, if_true, List.map_cons, List.sum_cons, List.map_ofFn,
        Function.comp_def, List.sum_ofFn, (a0.const hi k).1, (a0.const hi k).2, fun i => ((a i).const hi k).1,
        fun i => ((a i).const hi k).2, List.length_cons, List.length_ofFn, Nat.cast_add, Nat.cast_one, and_self]
    · simp only [NaryOp.forwardIn, NaryOp.eval, averageLayerT, ha, if_true, List.map_cons, List.sum_cons, List.map_ofFn,
        Function.comp_def, List.sum_ofFn, List.length_cons, List.length_ofFn, Nat.cast_add, Nat.cast_one]
      rw [affEval_div, affEval_div, hsum, hsum, (a0.aff ha k).1, (a0.aff ha k).2]
      simp only [fun i => ((a i).aff ha k).1, fun i => ((a i).aff ha k).2, and_self]
  | maximum =>
    have := (foldl_rel (fun f y => D.Point f.x p ∧ ExactAt m f p y) (maximumT D m false eps fun _ => 1) (fun a b k => max (a k) (b k))
      (fun a b a' b' h1 h2 => ⟨by simpa [maximumT, addT, reluT, subtractT] using h2.1,
        maximumT_exact D m eps _ a b p h1.1 h2.1 a' b' h1.2 h2.2⟩) _ _ (forall₂_ofFn _ _ _ fun i => ⟨h i, v i⟩) _ _ ⟨h0, v0⟩).2
    rw [hk] at this
    simpa only [NaryOp.forwardIn, NaryOp.eval, maximumLayerT, hm, fold_ofFn] using this
  | minimum =>
    have px : ∀ f : Full X ι κ ℝ, D.Point f.x p → D.Point (minusT D m f).x p := fun f hf => by simpa [minusT] using hf
    have := foldl_rel (fun f y => D.Point f.x p ∧ ExactAt m f p y) (maximumT D m false eps fun _ => 1) (fun a b k => max (a k) (b k))
      (fun a b a' b' h1 h2 => ⟨by simpa [maximumT, addT, reluT, subtractT] using h2.1,
        maximumT_exact D m eps _ a b p h1.1 h2.1 a' b' h1.2 h2.2⟩) _ _
      (forall₂_ofFn _ (fun i => minusT D m (fs i)) (fun i k => - ys i k)
        fun i => ⟨px _ (h i), minusT_exact D m _ p (h i) _ (v i)⟩) _ _ ⟨px _ h0, minusT_exact D m _ p h0 _ v0⟩
    have t := minusT_exact D m _ p this.1 _ this.2
    have e : ∀ k, - (List.ofFn fun i => - ys i k).foldl max (- y0 k) = Finset.univ.fold min (y0 k) (fun i => ys i k) := by
      intro k
      rw [← fold_ofFn, ← foldl_max_neg, List.map_ofFn]
      rfl
    cases r with
    | zero => simpa [NaryOp.forwardIn, minimumLayerT, NaryOp.eval] using v0
    | succ r =>
      rw [hk] at t
      dsimp only at t
      simp only [hm (fun i k => - ys i k), e] at t
      simpa only [NaryOp.forwardIn, NaryOp.eval, minimumLayerT, maximumLayerT, List.ofFn_succ, List.map_cons, List.map_ofFn, Function.comp_def] using t
  | multiply =>
    have := (foldl_rel (fun f y => D.Point f.x p ∧ ExactAt m f p y) (multiplyT D m) (fun a b k => a k * b k)
      (fun a b a' b' h1 h2 => ⟨by simpa [multiplyT] using h1.1, multiplyT_exact D m a b p h1.1 h2.1 a' b' h1.2 h2.2⟩) _ _
      (forall₂_ofFn _ _ _ fun i => ⟨h i, v i⟩) _ _ ⟨h0, v0⟩).2
    have e : ∀ (l : List ℝ) (a : ℝ), l.foldl (fun a b => a * b) a = a * l.prod := by
      intro l
      induction l with
      | nil => simp
      | cons b t ih => intro a; simp [ih, mul_assoc]
    rw [hk (fun a b => a * b)] at this
    simp only [hm, e, List.prod_ofFn] at this
    exact this

theorem SmoothAct.forwardIn_exact [Fintype ι] (D : PertDomain X ι ℝ) (m : Mode) (eps : ℝ) (s : Slope) (a : SmoothAct)
    (ha : getAffine m = true → a ≠ .softplus) (f : Full X ι κ ℝ) (p : ι → ℝ) (hD : D.Point f.x p) (y : κ → ℝ) (v : ExactAt m f p y) :
    ExactAt m (a.forwardIn D m eps s f) p (fun k => a.eval (y k)) := by
  cases a with
  | sigmoid =>
    have := sShapeT_exact sshaped_sigmoid D m eps f p hD y v
    simpa [SmoothAct.forwardIn, SmoothAct.eval, Real.sigmoid] using this
  | tanh => exact sShapeT_exact sshaped_tanh D m eps f p hD y v
  | softsign => exact sShapeT_exact sshaped_softsign D m eps f p hD y v
  | exponential => exact expT_exact D m eps f p hD y v
  | softplus =>
    have hc := (tighten_exact D m true true f p hD y v).2 rfl
    refine ⟨fun _ k => ?_, fun h k => absurd rfl (ha h)⟩
    simp only [SmoothAct.forwardIn, softplusT, (hc k).1, (hc k).2]
    exact ⟨rfl, rfl⟩

theorem RNet.forwardIn_exact [Fintype ι] (D : PertDomain X ι ℝ) (m : Mode) (eps : ℝ) (slope : Slope) (inp : Full X ι ι ℝ) (p : ι → ℝ)
    (hD : D.Point inp.x p) (hi : ExactAt m inp p p) {κ : Type} (n : RNet ι κ) (hn : getAffine m = true → n.NoSoftplus) :
    ExactAt m (n.forwardIn D m eps slope inp) p (n.eval p) := by
  have hx : ∀ {κ : Type} (n : RNet ι κ), D.Point (n.forwardIn D m eps slope inp).x p := fun n => by rw [RNet.forwardIn_x]; exact hD
  induction n with
  | input => exact hi
  | layer n l ih => exact Lay.forward_exact D m eps slope l _ p (hx n) _ (ih hn)
  | act a n ih => exact SmoothAct.forwardIn_exact D m eps slope a (fun h => (hn h).1) _ p (hx n) _ (ih fun h => (hn h).2)
  | pool win hw n ih =>
    have hc := (tighten_exact D m true true _ p (hx n) _ (ih hn)).2 rfl
    have e1 : ((n.forwardIn D m eps slope inp).tighten D m true true).lc = n.eval p := funext fun k => (hc k).1
    have e2 : ((n.forwardIn D m eps slope inp).tighten D m true true).uc = n.eval p := funext fun k => (hc k).2
    refine ⟨fun _ k => ?_, fun ha k => ?_⟩
    · simp only [RNet.forwardIn, RNet.eval, maxPoolFastT, e1, e2, maxPool, and_self]
    · simp only [RNet.forwardIn, RNet.eval, maxPoolFastT, e1, e2, maxPool, ha, if_true, zero_mul]
      simp [affEval]
  | merge op r n0 ns ih0 ih =>
    exact NaryOp.forwardIn_exact D m eps op _ _ p (hx n0) (fun i => hx (ns i)) _ _ (ih0 fun h => (hn h).1) fun i => ih i fun h => (hn h).2 i
  | subtract n0 n1 ih0 ih1 =>
    have := addT_exact D m _ _ p (hx n0) (by simpa [minusT] using hx n1) _ _ (ih0 fun h => (hn h).1)
      (minusT_exact D m _ p (hx n1) _ (ih1 fun h => (hn h).2))
    simpa only [RNet.forwardIn, RNet.eval, subtractT, sub_eq_add_neg] using this
  | concat j0 ns ih =>
    have a := fun j => (tighten_exact D m false true _ p (hx (ns j)) _ (ih j fun h => hn h j)).1
    refine ⟨fun hi k => ?_, fun ha k => ?_⟩
    · simp only [RNet.forwardIn, RNet.eval, concatLayerT, hi, if_true]
      exact (a k.1).const hi k.2
    · simp only [RNet.forwardIn, RNet.eval, concatLayerT, ha, if_true]
      exact (a k.1).aff ha k.2
  | @dot _ _ o0 o1 nn _ e0 e1 n0 n1 ih0 ih1 =>
    have a0 := ih0 fun h => (hn h).1
    have a1 := ih1 fun h => (hn h).2
    have s0 := hx n0
    have s1 := hx n1
    simp only [RNet.forwardIn, dotLayerT]
    set f0 := n0.forwardIn D m eps slope inp
    set f1 := n1.forwardIn D m eps slope inp
    have r0 : ExactAt m (f0.reindex fun q : (o0 × o1) × nn => e0 (q.2, q.1.1)) p fun q => n0.eval p (e0 (q.2, q.1.1)) :=
      ⟨fun h k => a0.const h _, fun h k => a0.aff h _⟩
    have r1 : ExactAt m (f1.reindex fun q : (o0 × o1) × nn => e1 (q.2, q.1.2)) p fun q => n1.eval p (e1 (q.2, q.1.2)) :=
      ⟨fun h k => a1.const h _, fun h k => a1.aff h _⟩
    have mm := multiplyT_exact D m _ _ p (by simpa [Full.reindex] using s0) (by simpa [Full.reindex] using s1) _ _ r0 r1
    have t := (tighten_exact D m false true _ p (by simpa [multiplyT, Full.reindex] using s0) _ mm).1
    have hsum : ∀ (w : nn → ι → ℝ) (b : nn → ℝ), affEval (fun i => ∑ j, w j i) (∑ j, b j) p = ∑ j, affEval (w j) (b j) p := by
      intro w b
      simp only [affEval, Finset.sum_add_distrib, Finset.sum_mul]
      rw [Finset.sum_comm]
    refine ⟨fun hi k => ?_, fun ha k => ?_⟩
    · simp only [sumT, hi, if_true, fun q => (t.const hi q).1, fun q => (t.const hi q).2]
      exact ⟨rfl, rfl⟩
    · simp only [sumT, ha, if_true]
      rw [hsum, hsum]
      simp only [fun q => (t.aff ha q).1, fun q => (t.aff ha q).2]
      exact ⟨rfl, rfl⟩

end

end Decomon
