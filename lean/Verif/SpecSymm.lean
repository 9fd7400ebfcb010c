import Verif.SpecNet

/-!
Specification of the change of units: two networks that compute the same function up to a renumbering of the neurons and an affine change
of variable `y ↦ c y + d` of every neuron and of every input.
-/

namespace Decomon

section
variable {κ κ' α : Type*} [Field α] [LinearOrder α]

/-- The interval `[l', u']` of neuron `e k` is the image of the interval `[l, u]` of neuron `k` by `y ↦ c k * y + d k`: the ends are
exchanged when `c k` is negative. -/
def ImageBounds (e : κ ≃ κ') (c d : κ → α) (u l : κ → α) (u' l' : κ' → α) : Prop :=
  ∀ k, u' (e k) = c k * (if 0 < c k then u k else l k) + d k ∧ l' (e k) = c k * (if 0 < c k then l k else u k) + d k

/-- The image of a vector: entry `e k` is `c k * y k + d k`. -/
def imagePoint (e : κ ≃ κ') (c d y : κ → α) : κ' → α := fun k' => c (e.symm k') * y (e.symm k') + d (e.symm k')

end

section
variable {ι ι' α : Type} [Field α] [LinearOrder α]

/-- `n'` is `n` written in other units: neuron `e k` of `n'` computes `c k * y + d k` where neuron `k` of `n` computes `y`, and likewise
layer by layer down to the inputs, where `s`, `a`, `t` say how the inputs are renumbered and changed.

* linear layers: the weights and the biases absorb the changes below and above;
* ReLU, maximum and minimum: positive factors (for ReLU and products no shift); a maximum becomes a minimum when the factors are negative;
* with `exact`, the factors at a ReLU, a maximum or a minimum are 1 or -1. -/
inductive Net.Reparam (exact : Prop) (s : ι ≃ ι') (a t : ι → α) :
    {κ κ' : Type} → Net α ι κ → Net α ι' κ' → (κ ≃ κ') → (κ → α) → (κ → α) → Prop
  | input : Reparam exact s a t .input .input s a t
  | dense {κ κ' μ μ' : Type} [Fintype κ] [DecidableEq κ] [Fintype κ'] [DecidableEq κ'] [Fintype μ] [Fintype μ']
      {n : Net α ι κ} {n' : Net α ι' κ'} {e : κ ≃ κ'} {c d : κ → α} (h : Reparam exact s a t n n' e c d)
      (e' : μ ≃ μ') (c' d' : μ → α) (hc : ∀ j, c' j ≠ 0) (K : κ → μ → α) (b : μ → α) (K' : κ' → μ' → α) (b' : μ' → α)
      (hK : ∀ i j, K' (e i) (e' j) * c i = c' j * K i j)
      (hb : ∀ j, b' (e' j) + ∑ i, K' (e i) (e' j) * d i = c' j * b j + d' j) :
      Reparam exact s a t (.layer n (.dense K b)) (.layer n' (.dense K' b')) e' c' d'
  | linear {S S' O O' T T' Q Q' : Type} [Fintype S] [DecidableEq S] [Fintype S'] [DecidableEq S'] [Fintype O] [Fintype O'] [Fintype T]
      [Fintype T'] {n : Net α ι S} {n' : Net α ι' S'} {e : S ≃ S'} {c d : S → α} (h : Reparam exact s a t n n' e c d)
      (e' : O ≃ O') (c' d' : O → α) (hc : ∀ j, c' j ≠ 0) (L : LinIndex S O T Q) (K : Q → α) (b : O → α) (L' : LinIndex S' O' T' Q')
      (K' : Q' → α) (b' : O' → α) (taps : O → T ≃ T') (hsrc : ∀ o t, L'.src (e' o) (taps o t) = (L.src o t).map e)
      (hK : ∀ o t r, L.src o t = some r → K' (L'.kidx (e' o) (taps o t)) * c r = c' o * K (L.kidx o t))
      (hb : ∀ o, b' (e' o) + ∑ t, K' (L'.kidx (e' o) (taps o t)) * (L.src o t).elim 0 d = c' o * b o + d' o) :
      Reparam exact s a t (.layer n (.linear L K b)) (.layer n' (.linear L' K' b')) e' c' d'
  | relu {κ κ' : Type} [Fintype κ] [DecidableEq κ] [Fintype κ'] [DecidableEq κ'] {n : Net α ι κ}
      {n' : Net α ι' κ'} {e : κ ≃ κ'} {c : κ → α} (h : Reparam exact s a t n n' e c fun _ => 0) (hc : ∀ k, 0 < c k)
      (hx : exact → ∀ k, c k = 1) (gf gb : κ → α) (gf' gb' : κ' → α) (hf : ∀ k, gf' (e k) = gf k) (hg : ∀ k, gb' (e k) = gb k) :
      Reparam exact s a t (.layer n (.relu gf gb)) (.layer n' (.relu gf' gb')) e c fun _ => 0
  | batchNorm {κ κ' : Type} [Fintype κ] [DecidableEq κ] [Fintype κ'] [DecidableEq κ'] {n : Net α ι κ}
      {n' : Net α ι' κ'} {e : κ ≃ κ'} {c d : κ → α} (h : Reparam exact s a t n n' e c d) (c' d' : κ → α) (hc : ∀ j, c' j ≠ 0)
      (gamma beta mean sd : κ → α) (gamma' beta' mean' sd' : κ' → α) (hsd : ∀ k, 0 < sd k) (hsd' : ∀ k, 0 < sd' k)
      (hw : ∀ k, gamma' (e k) / sd' (e k) * c k = c' k * (gamma k / sd k))
      (hb : ∀ k, gamma' (e k) / sd' (e k) * (d k - mean' (e k)) + beta' (e k) = c' k * (beta k - gamma k / sd k * mean k) + d' k) :
      Reparam exact s a t (.layer n (.batchNorm gamma beta mean sd)) (.layer n' (.batchNorm gamma' beta' mean' sd')) e c' d'
  | reshape {κ κ' μ μ' : Type} [Fintype κ] [DecidableEq κ] [Fintype κ'] [DecidableEq κ'] [Fintype μ] [Fintype μ'] {n : Net α ι κ}
      {n' : Net α ι' κ'} {e : κ ≃ κ'} {c d : κ → α} (h : Reparam exact s a t n n' e c d) (e' : μ ≃ μ') (r : μ → κ) (r' : μ' → κ')
      (hr : ∀ k, r' (e' k) = e (r k)) :
      Reparam exact s a t (.layer n (.reshape r)) (.layer n' (.reshape r')) e' (fun k => c (r k)) fun k => d (r k)
  | skip {κ κ' : Type} [Fintype κ] [DecidableEq κ] [Fintype κ'] [DecidableEq κ'] {n : Net α ι κ}
      {n' : Net α ι' κ'} {e : κ ≃ κ'} {c d : κ → α} (h : Reparam exact s a t n n' e c d) :
      Reparam exact s a t (.layer n .skip) (.layer n' .skip) e c d
  | add {κ κ' : Type} {n0 n1 : Net α ι κ} {n0' n1' : Net α ι' κ'} {e : κ ≃ κ'} {c d0 d1 : κ → α}
      (h0 : Reparam exact s a t n0 n0' e c d0) (h1 : Reparam exact s a t n1 n1' e c d1) :
      Reparam exact s a t (.merge .add n0 n1) (.merge .add n0' n1') e c fun k => d0 k + d1 k
  | average {κ κ' : Type} {n0 n1 : Net α ι κ} {n0' n1' : Net α ι' κ'} {e : κ ≃ κ'} {c d0 d1 : κ → α}
      (h0 : Reparam exact s a t n0 n0' e c d0) (h1 : Reparam exact s a t n1 n1' e c d1) :
      Reparam exact s a t (.merge .average n0 n1) (.merge .average n0' n1') e c fun k => (d0 k + d1 k) / 2
  | subtract {κ κ' : Type} {n0 n1 : Net α ι κ} {n0' n1' : Net α ι' κ'} {e : κ ≃ κ'} {c d0 d1 : κ → α}
      (h0 : Reparam exact s a t n0 n0' e c d0) (h1 : Reparam exact s a t n1 n1' e c d1) :
      Reparam exact s a t (.merge .subtract n0 n1) (.merge .subtract n0' n1') e c fun k => d0 k - d1 k
  | maximum {κ κ' : Type} {n0 n1 : Net α ι κ} {n0' n1' : Net α ι' κ'} {e : κ ≃ κ'} {c d : κ → α}
      (h0 : Reparam exact s a t n0 n0' e c d) (h1 : Reparam exact s a t n1 n1' e c d) (hc : ∀ k, 0 < c k)
      (hx : exact → ∀ k, c k = 1) : Reparam exact s a t (.merge .maximum n0 n1) (.merge .maximum n0' n1') e c d
  | minimum {κ κ' : Type} {n0 n1 : Net α ι κ} {n0' n1' : Net α ι' κ'} {e : κ ≃ κ'} {c d : κ → α}
      (h0 : Reparam exact s a t n0 n0' e c d) (h1 : Reparam exact s a t n1 n1' e c d) (hc : ∀ k, 0 < c k)
      (hx : exact → ∀ k, c k = 1) : Reparam exact s a t (.merge .minimum n0 n1) (.merge .minimum n0' n1') e c d
  | maxMin {κ κ' : Type} {n0 n1 : Net α ι κ} {n0' n1' : Net α ι' κ'} {e : κ ≃ κ'} {c d : κ → α}
      (h0 : Reparam exact s a t n0 n0' e c d) (h1 : Reparam exact s a t n1 n1' e c d) (hc : ∀ k, c k < 0)
      (hx : exact → ∀ k, c k = -1) : Reparam exact s a t (.merge .maximum n0 n1) (.merge .minimum n0' n1') e c d
  | multiply {κ κ' : Type} {n0 n1 : Net α ι κ} {n0' n1' : Net α ι' κ'} {e : κ ≃ κ'} {c0 c1 : κ → α}
      (h0 : Reparam exact s a t n0 n0' e c0 fun _ => 0) (h1 : Reparam exact s a t n1 n1' e c1 fun _ => 0) (hc0 : ∀ k, 0 < c0 k)
      (hc1 : ∀ k, 0 < c1 k) : Reparam exact s a t (.merge .multiply n0 n1) (.merge .multiply n0' n1') e (fun k => c0 k * c1 k) fun _ => 0

/-- The network `q` applied to the outputs of `n`. -/
def Net.onTop {κ : Type} (n : Net α ι κ) : {μ : Type} → Net α κ μ → Net α ι μ
  | _, .input => n
  | _, @Net.layer _ _ _ _ _ _ _ q l => .layer (n.onTop q) l
  | _, .merge op q0 q1 => .merge op (n.onTop q0) (n.onTop q1)

end

end Decomon
