import Verif.SpecIbp
import Verif.Lemmas.Refine
import Verif.Props.Activations
import Verif.Props.Exact
import Mathlib.Topology.Order.Lattice
import Mathlib.Topology.Algebra.Order.Field
import Mathlib.Analysis.SpecialFunctions.Log.Basic
import Mathlib.Topology.UniformSpace.HeineCantor

/-! Helper lemmas: interval propagation through networks of all the layers. -/

namespace Decomon

section
variable {X ι κ : Type}

theorem fold_ofFn (op : ℝ → ℝ → ℝ) [Std.Commutative op] [Std.Associative op] {r : ℕ} (a : ℝ) (f : Fin r → ℝ) :
    (List.ofFn f).foldl op a = Finset.univ.fold op a f := by
  rw [Finset.fold, Fin.univ_val_map, ← Multiset.coe_fold_l]

theorem SmoothAct.forward_x (D : PertDomain X ι ℝ) (eps : ℝ) (a : SmoothAct) (f : Full X ι κ ℝ) : (a.forward D eps f).x = f.x := by
  cases a <;> simp [SmoothAct.forward, sShapeT, expT, softplusIbpT]

theorem foldl_x (g : Full X ι κ ℝ → Full X ι κ ℝ → Full X ι κ ℝ) (x : X) (hg : ∀ a b, a.x = x → b.x = x → (g a b).x = x)
    (l : List (Full X ι κ ℝ)) (a : Full X ι κ ℝ) (ha : a.x = x) (hl : ∀ b ∈ l, b.x = x) : (l.foldl g a).x = x := by
  induction l generalizing a with
  | nil => exact ha
  | cons b t ih => exact ih _ (hg a b ha (hl b (by simp))) fun c hc => hl c (by simp [hc])

theorem NaryOp.forward_x (D : PertDomain X ι ℝ) (eps : ℝ) (op : NaryOp) (f0 : Full X ι κ ℝ) (fs : List (Full X ι κ ℝ)) (x : X)
    (h0 : f0.x = x) (h : ∀ f ∈ fs, f.x = x) : (op.forward D eps f0 fs).x = x := by
  have hmax : ∀ a b : Full X ι κ ℝ, a.x = x → b.x = x → (maximumT D .ibp false eps (fun _ => 1) a b).x = x := by
    intro a b _ hb
    simpa [maximumT, addT, reluT, subtractT] using hb
  cases op with
  | add => exact h0
  | average => exact h0
  | maximum => exact foldl_x _ x hmax fs f0 h0 h
  | minimum =>
    cases fs with
    | nil => exact h0
    | cons a t =>
      have := foldl_x _ x hmax ((a :: t).map (minusT D .ibp)) (minusT D .ibp f0) (by simpa [minusT] using h0) (by
        intro b hb
        obtain ⟨c, hc, rfl⟩ := List.mem_map.1 hb
        simpa [minusT] using h c hc)
      simpa [NaryOp.forward, minimumLayerT, maximumLayerT, minusT] using this
  | multiply => exact foldl_x _ x (fun a b ha _ => by simpa [multiplyT] using ha) fs f0 h0 h

theorem RNet.forward_x (D : PertDomain X ι ℝ) (eps : ℝ) (slope : Slope) (inp : Full X ι ι ℝ) {κ : Type} (n : RNet ι κ) :
    (n.forward D eps slope inp).x = inp.x := by
  induction n with
  | input => rfl
  | layer n l ih => simp only [RNet.forward, Lay.forward_x, ih]
  | act a n ih => simp only [RNet.forward, SmoothAct.forward_x, ih]
  | pool win hw n ih => simpa [RNet.forward, maxPoolFastT] using ih
  | merge op r n0 ns ih0 ih =>
    refine NaryOp.forward_x D eps op _ _ _ ih0 fun f hf => ?_
    obtain ⟨i, rfl⟩ := List.mem_ofFn.1 hf
    exact ih i
  | subtract n0 n1 ih0 _ => simpa [RNet.forward, subtractT, addT] using ih0
  | concat j0 ns ih => simpa [RNet.forward, concatLayerT] using ih j0
  | dot e0 e1 n0 n1 ih0 _ => simpa [RNet.forward, dotLayerT, sumT, multiplyT, Full.reindex] using ih0

/-! ### Soundness -/

theorem SmoothAct.forward_valid [Fintype ι] (D : PertDomain X ι ℝ) (eps : ℝ) (he : 0 < eps) (a : SmoothAct) (f : Full X ι κ ℝ)
    (R : Set (ι → ℝ)) (hD : D.Sound f.x R) (p : ι → ℝ) (hp : p ∈ R) (y : κ → ℝ) (v : Valid .ibp false f p y) :
    Valid .ibp false (a.forward D eps f) p (fun k => a.eval (y k)) := by
  have h := C19_s_shape_const D .ibp rfl eps f R hD p hp y v
  have h' := C19_exp_softplus_const D eps he f R hD p hp y v
  cases a with
  | sigmoid =>
    refine ⟨fun _ k => ?_, by simp [getAffine], by simp⟩
    simpa [SmoothAct.forward, SmoothAct.eval, Real.sigmoid] using (h k).1
  | tanh => exact ⟨fun _ k => (h k).2.1, by simp [getAffine], by simp⟩
  | softsign => exact ⟨fun _ k => (h k).2.2, by simp [getAffine], by simp⟩
  | exponential => exact h'.1
  | softplus => exact h'.2

theorem NaryOp.forward_valid [Fintype ι] (D : PertDomain X ι ℝ) (eps : ℝ) (he : 0 < eps) (op : NaryOp) {r : ℕ} (f0 : Full X ι κ ℝ)
    (fs : Fin r → Full X ι κ ℝ) (R : Set (ι → ℝ)) (p : ι → ℝ) (hp : p ∈ R) (y0 : κ → ℝ) (ys : Fin r → κ → ℝ)
    (h0 : D.Sound f0.x R) (h : ∀ i, D.Sound (fs i).x R) (v0 : Valid .ibp false f0 p y0) (v : ∀ i, Valid .ibp false (fs i) p (ys i)) :
    Valid .ibp false (op.forward D eps f0 (List.ofFn fs)) p (fun k => op.eval (y0 k) fun i => ys i k) := by
  have hf : List.Forall₂ (fun f y => D.Sound f.x R ∧ Valid .ibp false f p y) (List.ofFn fs) (List.ofFn ys) := by
    rw [List.forall₂_iff_get]
    refine ⟨by simp, fun i h1 h2 => ?_⟩
    simpa using ⟨h _, v _⟩
  have hm : ∀ k, (List.ofFn ys).map (fun y => y k) = List.ofFn fun i => ys i k := fun k => by simp [List.map_ofFn, Function.comp_def]
  cases op with
  | add =>
    have := C14_add_valid D .ibp f0 _ R p hp y0 _ h0 v0 hf
    simpa only [NaryOp.forward, NaryOp.eval, List.map_cons, List.sum_cons, hm, List.sum_ofFn] using this
  | average =>
    have := C14_average_valid D .ibp f0 _ R p hp y0 _ h0 v0 hf
    simpa only [NaryOp.forward, NaryOp.eval, List.map_cons, List.sum_cons, hm, List.sum_ofFn, List.length_cons, List.length_ofFn, Nat.cast_add, Nat.cast_one] using this
  | maximum =>
    have := (C14_maximum_minimum_ibp D eps he R p hp f0 _ y0 _ h0 v0 hf).1
    simpa only [NaryOp.forward, NaryOp.eval, hm, fold_ofFn] using this
  | minimum =>
    have := (C14_maximum_minimum_ibp D eps he R p hp f0 _ y0 _ h0 v0 hf).2
    simpa only [NaryOp.forward, NaryOp.eval, hm, fold_ofFn] using this
  | multiply =>
    have := C14_multiply_valid D .ibp R p hp f0 _ y0 _ h0 v0 hf
    simpa only [NaryOp.forward, NaryOp.eval, hm, List.prod_ofFn] using this

theorem RNet.forward_valid [Fintype ι] (D : PertDomain X ι ℝ) (eps : ℝ) (he : 0 < eps) (slope : Slope) (inp : Full X ι ι ℝ)
    (R : Set (ι → ℝ)) (hD : D.Sound inp.x R) (p : ι → ℝ) (hp : p ∈ R) (hi : Valid .ibp false inp p p) {κ : Type} (n : RNet ι κ)
    (hn : n.WF) : Valid .ibp false (n.forward D eps slope inp) p (n.eval p) := by
  have hx : ∀ {κ : Type} (n : RNet ι κ), D.Sound (n.forward D eps slope inp).x R := fun n => by rw [RNet.forward_x]; exact hD
  induction n with
  | input => exact hi
  | layer n l ih =>
    exact Lay.forward_valid D .ibp eps he slope l hn.2 _ R (hx n) (by cases l <;> simp [Lay.SliverOK, SliverFree, getAffine]) p hp _ (ih hn.1)
  | act a n ih => exact SmoothAct.forward_valid D eps he a _ R (hx n) p hp _ (ih hn)
  | pool win hw n ih =>
    refine C15_maxpool_fast_valid D .ibp win hw _ R (hx n) p hp _ (ih hn) _ fun k => ⟨?_, fun j hj => Finset.le_sup' _ hj⟩
    obtain ⟨j, hj, e⟩ := Finset.exists_mem_eq_sup' (hw k) (n.eval p)
    exact ⟨j, hj, e⟩
  | merge op r n0 ns ih0 ih =>
    exact NaryOp.forward_valid D eps he op _ _ R p hp _ _ (hx n0) (fun i => hx (ns i)) (ih0 hn.1) fun i => ih i (hn.2 i)
  | subtract n0 n1 ih0 ih1 => exact C07_subtract_valid D .ibp false _ _ R (hx n0) (hx n1) p hp _ _ (ih0 hn.1) (ih1 hn.2)
  | concat j0 ns ih => exact C14_concat_valid D .ibp j0 _ R p hp _ (fun j => hx (ns j)) fun j => ih j (hn j)
  | dot e0 e1 n0 n1 ih0 ih1 => exact C62_dot_valid D .ibp e0 e1 _ _ R (hx n0) (hx n1) p hp _ _ (ih0 hn.1) (ih1 hn.2)

/-! ### Monotonicity -/

/-- The constant bounds are not reversed. -/
def Ordered (f : Full X ι κ ℝ) : Prop := ∀ k, f.lc k ≤ f.uc k

theorem SmoothAct.mono (a : SmoothAct) : Monotone a.eval := by
  cases a with
  | sigmoid =>
    have e : (fun z => SmoothAct.sigmoid.eval z) = Real.sigmoid := by funext z; simp [SmoothAct.eval, Real.sigmoid]
    intro x y h
    have := sshaped_sigmoid.strictMono.monotone h
    rw [← e] at this; exact this
  | tanh => exact sshaped_tanh.strictMono.monotone
  | softsign => exact sshaped_softsign.strictMono.monotone
  | exponential => exact Real.exp_monotone
  | softplus => exact softplus_mono

theorem SmoothAct.forward_const (D : PertDomain X ι ℝ) (eps : ℝ) (a : SmoothAct) (f : Full X ι κ ℝ) (k : κ) :
    (a.forward D eps f).lc k = a.eval (f.lc k) ∧ (a.forward D eps f).uc k = a.eval (f.uc k) := by
  cases a <;> simp [SmoothAct.forward, SmoothAct.eval, sShapeT, expT, softplusIbpT, tighten_ibp_eq, getIbp, Real.sigmoid, Decomon.softsign, Decomon.softplus]

variable {X' : Type}

theorem foldl_rel {β γ : Type*} (R : β → γ → Prop) (g : β → β → β) (g' : γ → γ → γ)
    (hg : ∀ a b a' b', R a a' → R b b' → R (g a b) (g' a' b')) (l : List β) (l' : List γ) (h : List.Forall₂ R l l') (a : β) (a' : γ)
    (ha : R a a') : R (l.foldl g a) (l'.foldl g' a') := by
  induction h generalizing a a' with
  | nil => exact ha
  | cons h1 _ ih => exact ih _ _ (hg _ _ _ _ ha h1)

theorem forall₂_ofFn {β γ : Type*} (R : β → γ → Prop) {r : ℕ} (f : Fin r → β) (g : Fin r → γ) (h : ∀ i, R (f i) (g i)) :
    List.Forall₂ R (List.ofFn f) (List.ofFn g) := by
  rw [List.forall₂_iff_get]
  exact ⟨by simp, fun i h1 h2 => by simpa using h _⟩

theorem ordered_multiply (D : PertDomain X ι ℝ) (f0 f1 : Full X ι κ ℝ) (h0 : Ordered f0) (h1 : Ordered f1) :
    Ordered (multiplyT D .ibp f0 f1) := by
  intro k
  have a := mcc_lower (h0 k) le_rfl (h1 k) le_rfl (le_refl (f0.lc k)) (le_refl (f1.lc k))
  have b := mcc_upper (a := f0.lc k * f1.lc k) (h0 k) le_rfl (h1 k) le_rfl (le_refl (f0.lc k)) (le_refl (f1.lc k)) (by simp)
  have c := mcc_upper (a := f0.lc k * f1.lc k) (h1 k) le_rfl (h0 k) le_rfl (le_refl (f1.lc k)) (le_refl (f0.lc k)) (by simp [mul_comm])
  simp only [multiplyT, getIbp, if_true, tighten_ibp_eq]
  refine le_trans a (le_trans (by simp) (le_min b c))

theorem NaryOp.forward_tighter {D : PertDomain X ι ℝ} {D' : PertDomain X' ι ℝ} (eps : ℝ) (op : NaryOp) {r : ℕ} (f0 : Full X ι κ ℝ)
    (fs : Fin r → Full X ι κ ℝ) (g0 : Full X' ι κ ℝ) (gs : Fin r → Full X' ι κ ℝ) (h0 : Tighter f0 g0) (h : ∀ i, Tighter (fs i) (gs i))
    (o0 : Ordered f0) (o : ∀ i, Ordered (fs i)) :
    Tighter (op.forward D eps f0 (List.ofFn fs)) (op.forward D' eps g0 (List.ofFn gs)) := by
  have hsum : ∀ k, (g0.lc k + ∑ i, (gs i).lc k ≤ f0.lc k + ∑ i, (fs i).lc k) ∧ f0.uc k + ∑ i, (fs i).uc k ≤ g0.uc k + ∑ i, (gs i).uc k :=
    fun k => ⟨add_le_add (h0 k).1 (Finset.sum_le_sum fun i _ => (h i k).1), add_le_add (h0 k).2 (Finset.sum_le_sum fun i _ => (h i k).2)⟩
  cases op with
  | add =>
    intro k
    simpa only [NaryOp.forward, addLayerT, getIbp, if_true, tighten_ibp_eq, List.map_id', List.map_cons, List.sum_cons, List.map_ofFn,
      Function.comp_def, List.sum_ofFn] using hsum k
  | average =>
    intro k
    simp only [NaryOp.forward, averageLayerT, getIbp, if_true, tighten_ibp_eq, List.map_id', List.map_cons, List.sum_cons, List.map_ofFn,
      Function.comp_def, List.sum_ofFn, List.length_cons, List.length_ofFn]
    exact ⟨by have := (hsum k).1; gcongr, by have := (hsum k).2; gcongr⟩
  | maximum =>
    exact foldl_rel (fun a b => Tighter a b) _ _ (fun a b a' b' h1 h2 => tighter_maximum rfl eps _ _ h1 h2) _ _ (forall₂_ofFn _ _ _ h) _ _ h0
  | minimum =>
    have := foldl_rel (fun a b => Tighter a b) (maximumT D .ibp false eps fun _ => 1) (maximumT D' .ibp false eps fun _ => 1)
      (fun a b a' b' h1 h2 => tighter_maximum rfl eps _ _ h1 h2) _ _
      (forall₂_ofFn _ (fun i => minusT D .ibp (fs i)) (fun i => minusT D' .ibp (gs i)) fun i => tighter_minus (m := .ibp) rfl (h i)) _ _
      (tighter_minus (D := D) (m := .ibp) (D' := D') rfl h0)
    cases r with
    | zero => simpa [NaryOp.forward, minimumLayerT] using h0
    | succ r =>
      have e := tighter_minus (D := D) (m := .ibp) (D' := D') rfl this
      simpa only [NaryOp.forward, minimumLayerT, maximumLayerT, List.ofFn_succ, List.map_cons, List.map_ofFn, Function.comp_def] using e
  | multiply =>
    refine (foldl_rel (fun a b => Tighter a b ∧ Ordered a) _ _ (fun a b a' b' h1 h2 => ⟨?_, ordered_multiply D a b h1.2 h2.2⟩) _ _
      (forall₂_ofFn _ _ _ fun i => ⟨h i, o i⟩) _ _ ⟨h0, o0⟩).1
    exact tighter_multiply rfl h1.1 h2.1 (by rw [tighten_ibp_eq]; exact h1.2) (by rw [tighten_ibp_eq]; exact h2.2)

theorem RNet.forward_tighter {D : PertDomain X ι ℝ} {D' : PertDomain X' ι ℝ} (eps : ℝ) (s s' : Slope) {inp : Full X ι ι ℝ}
    {inp' : Full X' ι ι ℝ} (h : Tighter inp inp') {κ : Type} (n : RNet ι κ) (hn : n.WF)
    (ho : ∀ (κ : Type) (n : RNet ι κ), n.WF → Ordered (n.forward D eps s inp)) :
    Tighter (n.forward D eps s inp) (n.forward D' eps s' inp') := by
  induction n with
  | input => exact h
  | layer n l ih => exact tighter_layer rfl eps s s' l hn.2 (ih hn.1)
  | act a n ih =>
    intro k
    simp only [RNet.forward, (a.forward_const D eps _ k).1, (a.forward_const D eps _ k).2, (a.forward_const D' eps _ k).1,
      (a.forward_const D' eps _ k).2]
    exact ⟨a.mono (ih hn k).1, a.mono (ih hn k).2⟩
  | pool win hw n ih =>
    intro k
    simp only [RNet.forward, maxPoolFastT, tighten_ibp_eq, maxPool]
    exact ⟨Finset.sup'_mono_fun fun j _ => (ih hn j).1, Finset.sup'_mono_fun fun j _ => (ih hn j).2⟩
  | merge op r n0 ns ih0 ih =>
    exact NaryOp.forward_tighter eps op _ _ _ _ (ih0 hn.1) (fun i => ih i (hn.2 i)) (ho _ n0 hn.1) fun i => ho _ _ (hn.2 i)
  | subtract n0 n1 ih0 ih1 => exact tighter_add rfl (ih0 hn.1) (tighter_minus rfl (ih1 hn.2))
  | concat j0 ns ih =>
    intro k
    simp only [RNet.forward, concatLayerT, getIbp, if_true, tighten_ibp_eq]
    exact ih k.1 (hn k.1) k.2
  | @dot _ _ o0 o1 nn _ e0 e1 n0 n1 ih0 ih1 =>
    intro o
    have a := ih0 hn.1
    have b := ih1 hn.2
    have oa := ho _ n0 hn.1
    have ob := ho _ n1 hn.2
    simp only [RNet.forward, dotLayerT]
    set f0 := n0.forward D eps s inp
    set f1 := n1.forward D eps s inp
    set g0 := n0.forward D' eps s' inp'
    set g1 := n1.forward D' eps s' inp'
    have m := tighter_multiply (D := D) (m := .ibp) rfl (D' := D') (f0 := f0.reindex fun q : (o0 × o1) × nn => e0 (q.2, q.1.1)) (f1 := f1.reindex fun q : (o0 × o1) × nn => e1 (q.2, q.1.2))
      (g0 := g0.reindex fun q : (o0 × o1) × nn => e0 (q.2, q.1.1)) (g1 := g1.reindex fun q : (o0 × o1) × nn => e1 (q.2, q.1.2)) (fun k => a _) (fun k => b _)
      (fun k => by simpa [tighten_ibp_eq, Full.reindex] using oa _) (fun k => by simpa [tighten_ibp_eq, Full.reindex] using ob _)
    simp only [sumT, getIbp, if_true, tighten_ibp_eq]
    exact ⟨Finset.sum_le_sum fun t _ => (m _).1, Finset.sum_le_sum fun t _ => (m _).2⟩

/-! ### Bounds on a point -/

/-- Both constants are the value. -/
def Pinned (f : Full X ι κ ℝ) (y : κ → ℝ) : Prop := ∀ k, f.lc k = y k ∧ f.uc k = y k

theorem pinned_multiply (D : PertDomain X ι ℝ) (f0 f1 : Full X ι κ ℝ) (y0 y1 : κ → ℝ) (h0 : Pinned f0 y0) (h1 : Pinned f1 y1) :
    Pinned (multiplyT D .ibp f0 f1) (fun k => y0 k * y1 k) := by
  intro k
  simp only [multiplyT, getIbp, if_true, tighten_ibp_eq, (h0 k).1, (h0 k).2, (h1 k).1, (h1 k).2, min_self, max_self, mul_comm (y1 k)]
  constructor <;> ring

theorem pinned_minus (D : PertDomain X ι ℝ) (f : Full X ι κ ℝ) (y : κ → ℝ) (h : Pinned f y) : Pinned (minusT D .ibp f) (fun k => - y k) := by
  intro k
  simp [minusT, tighten_ibp_eq, (h k).1, (h k).2]

theorem pinned_maximum (D : PertDomain X ι ℝ) (eps : ℝ) (g : κ → ℝ) (f0 f1 : Full X ι κ ℝ) (y0 y1 : κ → ℝ) (h0 : Pinned f0 y0) (h1 : Pinned f1 y1) :
    Pinned (maximumT D .ibp false eps g f0 f1) (fun k => max (y0 k) (y1 k)) := by
  intro k
  have e : max (y0 k) (y1 k) = relu (y1 k + - y0 k) + y0 k := by unfold relu; rw [max_add, max_comm]; simp
  simp only [maximumT, reluT, subtractT, addT, minusT, getIbp, if_true, tighten_ibp_eq, (h0 k).1, (h0 k).2, (h1 k).1, (h1 k).2, e, and_self]

theorem NaryOp.forward_pinned (D : PertDomain X ι ℝ) (eps : ℝ) (op : NaryOp) {r : ℕ} (f0 : Full X ι κ ℝ) (fs : Fin r → Full X ι κ ℝ)
    (y0 : κ → ℝ) (ys : Fin r → κ → ℝ) (h0 : Pinned f0 y0) (h : ∀ i, Pinned (fs i) (ys i)) :
    Pinned (op.forward D eps f0 (List.ofFn fs)) (fun k => op.eval (y0 k) fun i => ys i k) := by
  have hm : ∀ (ys : Fin r → κ → ℝ) k, (List.ofFn ys).map (fun y => y k) = List.ofFn fun i => ys i k := fun ys k => by
    simp [List.map_ofFn, Function.comp_def]
  have hk : ∀ (g : ℝ → ℝ → ℝ) (l : List (κ → ℝ)) (a : κ → ℝ) (k : κ),
      l.foldl (fun a b k => g (a k) (b k)) a k = (l.map fun y => y k).foldl g (a k) := by
    intro g l
    induction l with
    | nil => intro a k; rfl
    | cons b t ih => intro a k; simp only [List.foldl_cons, List.map_cons, ih]
  cases op with
  | add =>
    intro k
    simp only [NaryOp.forward, NaryOp.eval, addLayerT, getIbp, if_true, tighten_ibp_eq, List.map_id', List.map_cons, List.sum_cons, List.map_ofFn,
      Function.comp_def, List.sum_ofFn, (h0 k).1, (h0 k).2, fun i => (h i k).1, fun i => (h i k).2, and_self]
  | average =>
    intro k
    simp only [NaryOp.forward, NaryOp.eval, averageLayerT, getIbp, if_true, tighten_ibp_eq, List.map_id', List.map_cons, List.sum_cons, List.map_ofFn,
      Function.comp_def, List.sum_ofFn, List.length_cons, List.length_ofFn, (h0 k).1, (h0 k).2, fun i => (h i k).1, fun i => (h i k).2,
      Nat.cast_add, Nat.cast_one, and_self]
  | maximum =>
    have := foldl_rel Pinned (maximumT D .ibp false eps fun _ => 1) (fun a b k => max (a k) (b k))
      (fun a b a' b' h1 h2 => pinned_maximum D eps _ a b a' b' h1 h2) _ _ (forall₂_ofFn _ _ _ h) _ _ h0
    intro k
    have t := this k
    simpa only [NaryOp.forward, NaryOp.eval, maximumLayerT, hk, hm, fold_ofFn] using t
  | minimum =>
    have := foldl_rel Pinned (maximumT D .ibp false eps fun _ => 1) (fun a b k => max (a k) (b k))
      (fun a b a' b' h1 h2 => pinned_maximum D eps _ a b a' b' h1 h2) _ _
      (forall₂_ofFn _ (fun i => minusT D .ibp (fs i)) (fun i k => - ys i k) fun i => pinned_minus D _ _ (h i)) _ _ (pinned_minus D _ _ h0)
    have t := pinned_minus D _ _ this
    have e : ∀ k, - (List.ofFn fun i => - ys i k).foldl max (- y0 k) = Finset.univ.fold min (y0 k) (fun i => ys i k) := by
      intro k
      rw [← fold_ofFn, ← foldl_max_neg, List.map_ofFn]
      rfl
    cases r with
    | zero => intro k; simpa [NaryOp.forward, minimumLayerT, NaryOp.eval] using h0 k
    | succ r =>
      intro k
      have t := t k
      dsimp only at t
      rw [hk, hm (fun i k => - ys i k), e] at t
      simpa only [NaryOp.forward, NaryOp.eval, minimumLayerT, maximumLayerT, List.ofFn_succ, List.map_cons, List.map_ofFn, Function.comp_def] using t
  | multiply =>
    have := foldl_rel Pinned (multiplyT D .ibp) (fun a b k => a k * b k)
      (fun a b a' b' h1 h2 => pinned_multiply D a b a' b' h1 h2) _ _ (forall₂_ofFn _ _ _ h) _ _ h0
    intro k
    have t := this k
    have e : ∀ (l : List ℝ) (a : ℝ), l.foldl (fun a b => a * b) a = a * l.prod := by
      intro l
      induction l with
      | nil => simp
      | cons b t ih => intro a; simp [ih, mul_assoc]
    rw [hk (fun a b => a * b), hm, e, List.prod_ofFn] at t
    exact t

theorem RNet.forward_pinned [Fintype ι] (D : PertDomain X ι ℝ) (eps : ℝ) (s : Slope) (inp : Full X ι ι ℝ) (p : ι → ℝ) (hD : D.Point inp.x p) (hi : Pinned inp p)
    {κ : Type} (n : RNet ι κ) : Pinned (n.forward D eps s inp) (n.eval p) := by
  induction n with
  | input => exact hi
  | layer n l ih =>
    have := Lay.forward_exact D .ibp eps s l (n.forward D eps s inp) p (by rw [RNet.forward_x]; exact hD) (n.eval p) ⟨fun _ => ih, by simp [getAffine]⟩
    exact this.const rfl
  | act a n ih =>
    intro k
    simp only [RNet.forward, RNet.eval, (a.forward_const D eps _ k).1, (a.forward_const D eps _ k).2, (ih k).1, (ih k).2, and_self]
  | pool win hw n ih =>
    have e1 : (n.forward D eps s inp).lc = n.eval p := funext fun k => (ih k).1
    have e2 : (n.forward D eps s inp).uc = n.eval p := funext fun k => (ih k).2
    intro k
    simp only [RNet.forward, RNet.eval, maxPoolFastT, tighten_ibp_eq, maxPool, e1, e2, and_self]
  | merge op r n0 ns ih0 ih => exact NaryOp.forward_pinned D eps op _ _ _ _ ih0 ih
  | subtract n0 n1 ih0 ih1 =>
    intro k
    simp only [RNet.forward, RNet.eval, subtractT, addT, minusT, tighten_ibp_eq, (ih0 k).1, (ih0 k).2, (ih1 k).1, (ih1 k).2,
      sub_eq_add_neg, and_self]
  | concat j0 ns ih =>
    intro k
    simp only [RNet.forward, RNet.eval, concatLayerT, getIbp, if_true, tighten_ibp_eq]
    exact ih k.1 k.2
  | @dot _ _ o0 o1 nn _ e0 e1 n0 n1 ih0 ih1 =>
    intro o
    have m := pinned_multiply D ((n0.forward D eps s inp).reindex fun q : (o0 × o1) × nn => e0 (q.2, q.1.1)) ((n1.forward D eps s inp).reindex fun q : (o0 × o1) × nn => e1 (q.2, q.1.2))
      (fun q : (o0 × o1) × nn => n0.eval p (e0 (q.2, q.1.1))) (fun q : (o0 × o1) × nn => n1.eval p (e1 (q.2, q.1.2))) (fun k => ih0 _) (fun k => ih1 _)
    simp only [RNet.forward, RNet.eval, dotLayerT, sumT, getIbp, if_true, tighten_ibp_eq, fun k => (m k).1, fun k => (m k).2, and_self]

/-! ### Continuity -/

/-- The constants depend continuously on the parameter `t`. -/
def ContFull {T : Type*} [TopologicalSpace T] (F : T → Full X ι κ ℝ) : Prop :=
  ∀ k, (Continuous fun t => (F t).lc k) ∧ Continuous fun t => (F t).uc k

variable {T : Type*} [TopologicalSpace T]

theorem Lay.forward_cont {κ' : Type} [Fintype κ] (D : PertDomain X ι ℝ) (eps : ℝ) (s : Slope) (l : Lay ℝ κ κ') (F : T → Full X ι κ ℝ)
    (hF : ContFull F) : ContFull fun t => l.forward D .ibp eps s (F t) := by
  have h1 := fun k => (hF k).1
  have h2 := fun k => (hF k).2
  cases l with
  | dense kernel bias =>
    intro k
    simp only [Lay.forward, denseT, getIbp, if_true, tighten_ibp_eq]
    constructor <;> fun_prop
  | linear L kernel bias =>
    intro k
    simp only [Lay.forward, linearLayerT, getIbp, if_true, tighten_ibp_eq, LinIndex.apply]
    have e1 : ∀ t, Continuous fun a => (L.src k t).elim 0 (F a).lc := by
      intro t
      cases L.src k t with
      | none => exact continuous_const
      | some j => exact h1 j
    have e2 : ∀ t, Continuous fun a => (L.src k t).elim 0 (F a).uc := by
      intro t
      cases L.src k t with
      | none => exact continuous_const
      | some j => exact h2 j
    constructor <;> fun_prop
  | relu gf gb =>
    intro k
    simp only [Lay.forward, reluT, getIbp, if_true, tighten_ibp_eq, Decomon.relu]
    constructor <;> fun_prop
  | batchNorm gamma beta mean sd =>
    intro k
    simp only [Lay.forward, batchNormT, getIbp, if_true, tighten_ibp_eq]
    constructor <;> fun_prop
  | reshape e =>
    intro k
    simp only [Lay.forward, reindexT, getIbp, if_true, tighten_ibp_eq]
    exact hF (e k)
  | skip => exact hF

theorem SmoothAct.cont (a : SmoothAct) : Continuous a.eval := by
  cases a with
  | sigmoid =>
    have : Continuous fun z : ℝ => 1 / (1 + Real.exp (-z)) :=
      continuous_const.div (by fun_prop) fun z => by have := Real.exp_pos (-z); positivity
    exact this
  | tanh =>
    exact continuous_iff_continuousAt.2 fun x => (sshaped_tanh.deriv x).continuousAt
  | softsign =>
    exact continuous_iff_continuousAt.2 fun x => (sshaped_softsign.deriv x).continuousAt
  | exponential => exact Real.continuous_exp
  | softplus =>
    have : Continuous fun z : ℝ => Real.log (1 + Real.exp z) :=
      Continuous.log (by fun_prop) fun z => by have := Real.exp_pos z; positivity
    exact this

theorem cont_multiply (D : PertDomain X ι ℝ) (F G : T → Full X ι κ ℝ) (hF : ContFull F) (hG : ContFull G) :
    ContFull fun t => multiplyT D .ibp (F t) (G t) := by
  intro k
  have f1 := (hF k).1
  have f2 := (hF k).2
  have g1 := (hG k).1
  have g2 := (hG k).2
  simp only [multiplyT, getIbp, if_true, tighten_ibp_eq]
  constructor <;> fun_prop

theorem cont_minus (D : PertDomain X ι ℝ) (F : T → Full X ι κ ℝ) (hF : ContFull F) : ContFull fun t => minusT D .ibp (F t) := by
  intro k
  have f1 := (hF k).1
  have f2 := (hF k).2
  simp only [minusT, tighten_ibp_eq]
  constructor <;> fun_prop

theorem cont_maximum (D : PertDomain X ι ℝ) (eps : ℝ) (F G : T → Full X ι κ ℝ) (hF : ContFull F) (hG : ContFull G) :
    ContFull fun t => maximumT D .ibp false eps (fun _ => 1) (F t) (G t) := by
  intro k
  have f1 := (hF k).1
  have f2 := (hF k).2
  have g1 := (hG k).1
  have g2 := (hG k).2
  simp only [maximumT, reluT, subtractT, addT, minusT, getIbp, if_true, tighten_ibp_eq, relu]
  constructor <;> fun_prop

theorem cont_fold (g : Full X ι κ ℝ → Full X ι κ ℝ → Full X ι κ ℝ)
    (hg : ∀ F G : T → Full X ι κ ℝ, ContFull F → ContFull G → ContFull fun t => g (F t) (G t)) :
    ∀ (r : ℕ) (F0 : T → Full X ι κ ℝ) (F : Fin r → T → Full X ι κ ℝ), ContFull F0 → (∀ i, ContFull (F i)) →
      ContFull fun t => (List.ofFn fun i => F i t).foldl g (F0 t)
  | 0, F0, F, h0, _ => by simpa using h0
  | r + 1, F0, F, h0, h => by
    simp only [List.ofFn_succ, List.foldl_cons]
    exact cont_fold g hg r (fun t => g (F0 t) (F 0 t)) (fun i t => F i.succ t) (hg _ _ h0 (h 0)) fun i => h _

theorem NaryOp.forward_cont (D : PertDomain X ι ℝ) (eps : ℝ) (op : NaryOp) {r : ℕ} (F0 : T → Full X ι κ ℝ) (F : Fin r → T → Full X ι κ ℝ)
    (h0 : ContFull F0) (h : ∀ i, ContFull (F i)) : ContFull fun t => op.forward D eps (F0 t) (List.ofFn fun i => F i t) := by
  have c1 := fun k => (h0 k).1
  have c2 := fun k => (h0 k).2
  have d1 := fun i k => (h i k).1
  have d2 := fun i k => (h i k).2
  cases op with
  | add =>
    intro k
    simp only [NaryOp.forward, addLayerT, getIbp, if_true, tighten_ibp_eq, List.map_id', List.map_cons, List.sum_cons, List.map_ofFn,
      Function.comp_def, List.sum_ofFn]
    constructor <;> fun_prop
  | average =>
    intro k
    simp only [NaryOp.forward, averageLayerT, getIbp, if_true, tighten_ibp_eq, List.map_id', List.map_cons, List.sum_cons, List.map_ofFn,
      Function.comp_def, List.sum_ofFn, List.length_cons, List.length_ofFn]
    constructor <;> fun_prop
  | maximum => exact cont_fold _ (fun F G hF hG => cont_maximum D eps F G hF hG) r F0 F h0 h
  | minimum =>
    have := cont_minus D _ (cont_fold _ (fun F G hF hG => cont_maximum D eps F G hF hG) r _ _ (cont_minus D F0 h0) fun i => cont_minus D (F i) (h i))
    cases r with
    | zero => simpa [NaryOp.forward, minimumLayerT] using h0
    | succ r =>
      simpa only [NaryOp.forward, minimumLayerT, maximumLayerT, List.ofFn_succ, List.map_cons, List.map_ofFn, Function.comp_def] using this
  | multiply => exact cont_fold _ (fun F G hF hG => cont_multiply D F G hF hG) r F0 F h0 h

theorem RNet.forward_cont (D : PertDomain X ι ℝ) (eps : ℝ) (s : Slope) (inp : T → Full X ι ι ℝ) (hi : ContFull inp) {κ : Type} (n : RNet ι κ) :
    ContFull fun t => n.forward D eps s (inp t) := by
  induction n with
  | input => exact hi
  | layer n l ih => exact Lay.forward_cont D eps s l _ ih
  | act a n ih =>
    intro k
    simp only [RNet.forward, (a.forward_const D eps _ k).1, (a.forward_const D eps _ k).2]
    exact ⟨a.cont.comp (ih k).1, a.cont.comp (ih k).2⟩
  | pool win hw n ih =>
    intro k
    simp only [RNet.forward, maxPoolFastT, tighten_ibp_eq, maxPool]
    exact ⟨Continuous.finset_sup'_apply (hw k) fun j _ => (ih j).1, Continuous.finset_sup'_apply (hw k) fun j _ => (ih j).2⟩
  | merge op r n0 ns ih0 ih => exact NaryOp.forward_cont D eps op _ _ ih0 ih
  | subtract n0 n1 ih0 ih1 =>
    intro k
    have f1 := (ih0 k).1
    have f2 := (ih0 k).2
    have g1 := (ih1 k).1
    have g2 := (ih1 k).2
    simp only [RNet.forward, subtractT, addT, minusT, tighten_ibp_eq]
    constructor <;> fun_prop
  | concat j0 ns ih =>
    intro k
    simp only [RNet.forward, concatLayerT, getIbp, if_true, tighten_ibp_eq]
    exact ih k.1 k.2
  | @dot _ _ o0 o1 nn _ e0 e1 n0 n1 ih0 ih1 =>
    intro o
    have m := cont_multiply D (fun t => (n0.forward D eps s (inp t)).reindex fun q : (o0 × o1) × nn => e0 (q.2, q.1.1))
      (fun t => (n1.forward D eps s (inp t)).reindex fun q : (o0 × o1) × nn => e1 (q.2, q.1.2)) (fun k => ih0 _) (fun k => ih1 _)
    have m1 := fun k => (m k).1
    have m2 := fun k => (m k).2
    simp only [RNet.forward, dotLayerT, sumT, getIbp, if_true, tighten_ibp_eq]
    constructor <;> fun_prop

end

end Decomon
