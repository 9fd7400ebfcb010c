import Verif.Lemmas.Copies
import Verif.Props.Prune
import Mathlib.Data.Fintype.Basic
import Mathlib.Data.Rat.Init
import Mathlib.Algebra.Order.Field.Rat
import Mathlib.Tactic.NormNum

/-!
C159: replacing the neurons of a hidden layer by copies, with the outgoing weights shared among the copies, keeps the bounds.
-/

namespace Decomon

section
variable {X ι κ₀ κ κ' μ ν α : Type} [Fintype ι] [DecidableEq ι] [Fintype κ₀] [DecidableEq κ₀] [Fintype κ] [DecidableEq κ] [Fintype κ'] [DecidableEq κ']
  [Fintype μ] [DecidableEq μ] [Field α] [LinearOrder α]

omit [Fintype ι] [DecidableEq ι] in
/-- **C159 (sanity).** The network with copies computes the same function; for this the signs of the weights do not matter. -/
theorem C159_eval (n0 : Net α ι κ₀) (K1 : κ₀ → κ → α) (b1 gf gb : κ → α) (gf' gb' : κ' → α) (r : κ' → κ) (K2 : κ → μ → α) (K2' : κ' → μ → α)
    (hK : ∀ o k, ∑ k' with r k' = k, K2' k' o = K2 k o) (b2 : μ → α) (x : ι → α) :
    (n0.withHidden (fun t k => K1 t (r k)) (fun k => b1 (r k)) gf' gb' K2' b2 .input).eval x = (n0.withHidden K1 b1 gf gb K2 b2 .input).eval x := by
  funext o
  simp only [Net.withHidden, Net.onTop, Net.eval, Lay.eval]
  congr 1
  exact sum_copies r (fun k => K2' k o) (fun k => K2 k o) (fun k => max (∑ t, K1 t k * Net.eval x n0 t + b1 k) 0) (hK o)

variable [IsStrictOrderedRing α]

/-- **C159 (forward).** The weights that leave the copies add up to the old weight and have its sign, for each output on its own: all
the tensors that the converted model returns are the same, over every domain. -/
theorem C159_forward (D : PertDomain X ι α) (n0 : Net α ι κ₀) (K1 : κ₀ → κ → α) (b1 gf gb : κ → α) (r : κ' → κ) {K2 : κ → μ → α} {K2' : κ' → μ → α}
    (hK : SplitWeights r K2 K2') (b2 : μ → α) (q : Net α μ ν) (m : Mode) (eps : α) (slope : Slope) (inp : Full X ι ι α) :
    (n0.withHidden (fun t k => K1 t (r k)) (fun k => b1 (r k)) (fun k => gf (r k)) (fun k => gb (r k)) K2' b2 q).forward D m eps slope inp =
      (n0.withHidden K1 b1 gf gb K2 b2 q).forward D m eps slope inp :=
  forward_onTop (forward_copies D m eps slope inp n0 K1 b1 gf gb r hK b2) q

/-- **C159 (backward).** The copies of every neuron have shares, the same for all outputs, and the weights that leave a copy are its share of
the old weights: `crown` and `crown-forward-*` return the same tensors (or raise the same exception), over every domain, with and without a
matrix of combinations of the outputs. -/
theorem C159_crown (C : CrownCfg X ι α) (n0 : Net α ι κ₀) (K1 : κ₀ → κ → α) (b1 gf gb : κ → α) (r : κ' → κ) {c : κ' → α} (hc : Shares r c)
    (K2 : κ → μ → α) (b2 : μ → α) (q : Net α μ ν) :
    let n := n0.withHidden K1 b1 gf gb K2 b2 q
    let n' := n0.withHidden (fun t k => K1 t (r k)) (fun k => b1 (r k)) (fun k => gf (r k)) (fun k => gb (r k)) (fun k o => c k * K2 (r k) o) b2 q
    C.model n' = C.model n ∧ ∀ (ξ : Type) (M : ν → ξ → α), C.modelBack n' M = C.modelBack n M := by
  have := (CrownCfg.node_onTop (node_copies C n0 K1 b1 gf gb r hc K2 b2)
    (forward_copies C.D C.m C.eps C.slope C.inp n0 K1 b1 gf gb r (hc.split K2) b2) q).1
  refine ⟨?_, fun ξ M => ?_⟩
  · simp only [CrownCfg.model, Net.withHidden, this]
  · simp only [CrownCfg.modelBack, Net.withHidden, this]

end

/-! ### Concrete cases -/

/-- Neuron 0 has two copies, neuron 1 has one. -/
def twoCopies : Fin 3 → Fin 2 := ![0, 0, 1]

theorem twoCopies_shares : Shares (α := ℚ) twoCopies ![1 / 3, 2 / 3, 1] := by
  refine ⟨fun k => ?_, fun k => ?_⟩
  · fin_cases k <;> norm_num
  · revert k; decide +kernel

/-- Shares that depend on the output. -/
theorem twoCopies_split : SplitWeights (α := ℚ) twoCopies ![![3, -1], ![2, 5]] ![![3, -1 / 2], ![0, -1 / 2], ![2, 5]] := by
  unfold SplitWeights
  decide +kernel

example (q : Net ℚ (Fin 2) (Fin 1)) (m : Mode) :=
  C159_forward boxDomain (.input : Net ℚ (Fin 1) (Fin 1)) ![![1, -1]] ![0, 1] (fun _ => 1) (fun _ => 1) twoCopies twoCopies_split ![1, 0] q m (1 / 10 ^ 7) .vSlope
    (inputTensorsBox m ![-1] ![1])

example (q : Net ℚ (Fin 2) (Fin 1)) (m : Mode) :=
  C159_crown (boxCrown m (1 / 10 ^ 7) .vSlope false ![-1] ![1]) (.input : Net ℚ (Fin 1) (Fin 1)) ![![1, -1]] ![0, 1] (fun _ => 1) (fun _ => 1) twoCopies
    twoCopies_shares ![![3, -1], ![2, 5]] ![1, 0] q

example (x : Fin 1 → ℚ) :=
  C159_eval (.input : Net ℚ (Fin 1) (Fin 1)) ![![1, -1]] ![0, 1] (fun _ => 1) (fun _ => 1) (fun _ => 1) (fun _ => 1) twoCopies ![![3, -1], ![2, 5]]
    ![![7, 0], ![-4, -1], ![2, 5]] (by decide +kernel) ![1, 0] x

/-- One hidden neuron, two outputs, and their difference. -/
def oneNeuron : Net ℚ (Fin 1) (Fin 1) :=
  Net.withHidden .input ![![1]] ![0] (fun _ => 1) (fun _ => 1) ![![1, 1]] ![0, 0] (.layer .input (.dense ![![1], ![-1]] ![0]))

/-- The same with two copies of the neuron, one for each output. -/
def twoNeurons : Net ℚ (Fin 1) (Fin 1) :=
  Net.withHidden .input ![![1, 1]] ![0, 0] (fun _ => 1) (fun _ => 1) ![![1, 0], ![0, 1]] ![0, 0] (.layer .input (.dense ![![1], ![-1]] ![0]))

/-- The same function, and the weights of the copies are split with the right signs. -/
example : SplitWeights (α := ℚ) (fun _ : Fin 2 => (0 : Fin 1)) ![![1, 1]] ![![1, 0], ![0, 1]] := by
  unfold SplitWeights
  decide +kernel

/-- The upper bound that `crown` computes from the affine bounds. -/
def crownUpper (n : Net ℚ (Fin 1) (Fin 1)) : Option ℚ :=
  match (boxCrown .hybrid (1 / 10 ^ 7) .vSlope false ![-1] ![1]).model n with
  | .ok f => some (f.uc 0)
  | .error _ => none

theorem oneNeuron_upper : crownUpper oneNeuron = some 0 ∧ crownUpper twoNeurons = some 1 := by
  decide +kernel

/-- **C159 (the limit of the backward part).** With shares that depend on the output the forward bounds are the same, but `crown` loses the
cancellation between the copies: the difference of two equal outputs is bounded by 0 with one neuron, not with two. -/
theorem C159_uneven_refuted :
    ¬ ∀ (r : Fin 2 → Fin 1) (K2 : Fin 1 → Fin 2 → ℚ) (K2' : Fin 2 → Fin 2 → ℚ), SplitWeights r K2 K2' →
      ∀ (q : Net ℚ (Fin 2) (Fin 1)),
        (boxCrown .hybrid (1 / 10 ^ 7) .vSlope false ![-1] ![1]).model
            (Net.withHidden (.input : Net ℚ (Fin 1) (Fin 1)) (fun t k => ![![1]] t (r k)) (fun k => ![0] (r k)) (fun _ => 1) (fun _ => 1) K2' ![0, 0] q) =
          (boxCrown .hybrid (1 / 10 ^ 7) .vSlope false ![-1] ![1]).model
            (Net.withHidden (.input : Net ℚ (Fin 1) (Fin 1)) ![![1]] ![0] (fun _ => 1) (fun _ => 1) K2 ![0, 0] q) := by
  intro h
  have h := h (fun _ => 0) ![![1, 1]] ![![1, 0], ![0, 1]] (by unfold SplitWeights; decide +kernel) (.layer .input (.dense ![![1], ![-1]] ![0]))
  have e : Net.withHidden (.input : Net ℚ (Fin 1) (Fin 1)) (fun t (_ : Fin 2) => (![![1]] : Fin 1 → Fin 1 → ℚ) t 0) (fun _ => (![0] : Fin 1 → ℚ) 0) (fun _ => 1)
      (fun _ => 1) ![![1, 0], ![0, 1]] ![0, 0] (.layer .input (.dense ![![1], ![-1]] ![0])) = twoNeurons := by
    unfold twoNeurons
    congr 1
    · decide +kernel
    · decide +kernel
  have : crownUpper twoNeurons = crownUpper oneNeuron := by
    unfold crownUpper
    rw [← e, h]
    rfl
  rw [oneNeuron_upper.1, oneNeuron_upper.2] at this
  exact absurd this (by decide +kernel)

/-- **C159 (the limit of the forward part).** The signs matter: a neuron with outgoing weight 1, copied with weights 2 and -1. -/
theorem C159_sign_refuted :
    ¬ ∀ (K2 : Fin 1 → Fin 1 → ℚ) (K2' : Fin 2 → Fin 1 → ℚ), (∀ o k, ∑ k', K2' k' o = K2 k o) →
      (Net.withHidden (.input : Net ℚ (Fin 1) (Fin 1)) ![![1, 1]] ![0, 0] (fun _ => 1) (fun _ => 1) K2' ![0] .input).forward boxDomain .ibp
          (1 / 10 ^ 7) .vSlope (inputTensorsBox .ibp ![-1] ![1]) =
        (Net.withHidden (.input : Net ℚ (Fin 1) (Fin 1)) ![![1]] ![0] (fun _ => 1) (fun _ => 1) K2 ![0] .input).forward boxDomain .ibp (1 / 10 ^ 7)
          .vSlope (inputTensorsBox .ibp ![-1] ![1]) := by
  intro h
  have := congrArg (fun f => f.lc 0) (h ![![1]] ![![2], ![-1]] (by decide +kernel))
  revert this
  clear h
  decide +kernel

end Decomon
