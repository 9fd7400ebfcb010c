import Verif.SpecNet
import Mathlib.Logic.Function.Defs
import Mathlib.Data.Set.Operations

/-!
Specification for parts of a network that do not matter: inputs and neurons that are removed because nothing that is kept reads them.
-/

namespace Decomon

section
variable {ι ι' α : Type} [Field α] [LinearOrder α]

/-- `n'` is `n` without some of its inputs and neurons: `ρ` gives the inputs and `r` the outputs that are kept.  In the linear layers the weights from
the neurons that are removed to those that are kept are zero. -/
inductive Net.Keeps (ρ : ι' → ι) : {κ κ' : Type} → Net α ι κ → Net α ι' κ' → (κ' → κ) → Prop
  | input : Keeps ρ .input .input ρ
  | dense {κ κ' μ μ' : Type} [Fintype κ] [DecidableEq κ] [Fintype μ] [Fintype κ'] [DecidableEq κ'] [Fintype μ'] {n : Net α ι κ} {n' : Net α ι' κ'}
      {r : κ' → κ} (h : Keeps ρ n n' r) (s : μ' → μ) (hs : Function.Injective s) (K : κ → μ → α) (b : μ → α) (hK : ∀ t, t ∉ Set.range r → ∀ o, K t (s o) = 0) :
      Keeps ρ (.layer n (.dense K b)) (.layer n' (.dense (fun t o => K (r t) (s o)) fun o => b (s o))) s
  | linear {κ κ' μ μ' T T' Q Q' : Type} [Fintype κ] [DecidableEq κ] [Fintype μ] [Fintype κ'] [DecidableEq κ'] [Fintype μ'] [Fintype T] [Fintype T']
      {n : Net α ι κ} {n' : Net α ι' κ'} {r : κ' → κ} (h : Keeps ρ n n' r) (s : μ' → μ) (hs : Function.Injective s) (L : LinIndex κ μ T Q) (K : Q → α)
      (b : μ → α) (L' : LinIndex κ' μ' T' Q') (K' : Q' → α) (taps : μ' → T' → T) (ht : ∀ o, Function.Injective (taps o))
      (hsrc : ∀ o t, L.src (s o) (taps o t) = (L'.src o t).map r) (hK : ∀ o t, K' (L'.kidx o t) = K (L.kidx (s o) (taps o t)))
      (h0 : ∀ o t, t ∉ Set.range (taps o) → L.src (s o) t = none ∨ K (L.kidx (s o) t) = 0) :
      Keeps ρ (.layer n (.linear L K b)) (.layer n' (.linear L' K' fun o => b (s o))) s
  | relu {κ κ' : Type} {i j : Fintype κ} {d : DecidableEq κ} {i' j' : Fintype κ'} {d' : DecidableEq κ'} {n : Net α ι κ} {n' : Net α ι' κ'} {r : κ' → κ} (h : Keeps ρ n n' r)
      (gf gb : κ → α) : Keeps ρ (@Net.layer _ _ _ _ i d j n (.relu gf gb)) (@Net.layer _ _ _ _ i' d' j' n' (.relu (fun k => gf (r k)) fun k => gb (r k))) r
  | batchNorm {κ κ' : Type} {i j : Fintype κ} {d : DecidableEq κ} {i' j' : Fintype κ'} {d' : DecidableEq κ'} {n : Net α ι κ} {n' : Net α ι' κ'} {r : κ' → κ} (h : Keeps ρ n n' r)
      (gamma beta mean sd : κ → α) : Keeps ρ (@Net.layer _ _ _ _ i d j n (.batchNorm gamma beta mean sd))
        (@Net.layer _ _ _ _ i' d' j' n' (.batchNorm (fun k => gamma (r k)) (fun k => beta (r k)) (fun k => mean (r k)) fun k => sd (r k))) r
  | reshape {κ κ' μ μ' : Type} [Fintype κ] [DecidableEq κ] [Fintype μ] [Fintype κ'] [DecidableEq κ'] [Fintype μ'] {n : Net α ι κ} {n' : Net α ι' κ'}
      {r : κ' → κ} (h : Keeps ρ n n' r) (s : μ' → μ) (hs : Function.Injective s) (e : μ → κ) (e' : μ' → κ') (he : ∀ k, e (s k) = r (e' k)) :
      Keeps ρ (.layer n (.reshape e)) (.layer n' (.reshape e')) s
  | skip {κ κ' : Type} {i j : Fintype κ} {d : DecidableEq κ} {i' j' : Fintype κ'} {d' : DecidableEq κ'} {n : Net α ι κ} {n' : Net α ι' κ'} {r : κ' → κ} (h : Keeps ρ n n' r) :
      Keeps ρ (@Net.layer _ _ _ _ i d j n .skip) (@Net.layer _ _ _ _ i' d' j' n' .skip) r
  | merge {κ κ' : Type} {n0 n1 : Net α ι κ} {n0' n1' : Net α ι' κ'} {r : κ' → κ} (op : MergeOp) (h0 : Keeps ρ n0 n0' r) (h1 : Keeps ρ n1 n1' r) :
      Keeps ρ (.merge op n0 n1) (.merge op n0' n1') r

/-- The bounds `f'` are those of the outputs `r k` in `f`: the constant ones, the affine ones, the numbers that these give over the box; the removed
inputs have the weight zero. -/
def KeptBounds [Fintype ι] [Fintype ι'] {κ κ' : Type} (ρ : ι' → ι) (r : κ' → κ) (f : Full ((ι → α) × (ι → α)) ι κ α)
    (f' : Full ((ι' → α) × (ι' → α)) ι' κ' α) : Prop :=
  ∀ k, f'.uc k = f.uc (r k) ∧ f'.lc k = f.lc (r k) ∧ f'.bu k = f.bu (r k) ∧ f'.bl k = f.bl (r k) ∧
    (∀ i, f'.wu i k = f.wu (ρ i) (r k) ∧ f'.wl i k = f.wl (ρ i) (r k)) ∧ (∀ i, i ∉ Set.range ρ → f.wu i (r k) = 0 ∧ f.wl i (r k) = 0) ∧
    boxDomain.getUpper f'.x (fun i => f'.wu i k) (f'.bu k) = boxDomain.getUpper f.x (fun i => f.wu i (r k)) (f.bu (r k)) ∧
    boxDomain.getLower f'.x (fun i => f'.wl i k) (f'.bl k) = boxDomain.getLower f.x (fun i => f.wl i (r k)) (f.bl (r k))

/-- Two conversions end in the same way: with the same exception, or with results related by `P`. -/
def SameResult {A A' : Type} (P : A → A' → Prop) : Except PyErr A → Except PyErr A' → Prop
  | .ok a, .ok a' => P a a'
  | .error e, .error e' => e = e'
  | _, _ => False

/-- The neuron is off: its computed bounds are not positive. -/
def OffNeuron {X κ : Type} (D : PertDomain X ι α) (m : Mode) (f : Full X ι κ α) (k : κ) : Prop :=
  match m with
  | .ibp => f.uc k ≤ 0 ∧ f.lc k < 0
  | .affine => D.getUpper f.x (fun i => f.wu i k) (f.bu k) ≤ 0 ∧ D.getLower f.x (fun i => f.wl i k) (f.bl k) < 0
  | .hybrid => (f.uc k ≤ 0 ∨ D.getUpper f.x (fun i => f.wu i k) (f.bu k) ≤ 0) ∧ f.lc k < 0 ∧ D.getLower f.x (fun i => f.wl i k) (f.bl k) < 0

end

end Decomon
