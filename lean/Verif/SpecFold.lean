import Verif.SpecNet

/-!
Specification of the merging of consecutive linear layers.
-/

namespace Decomon

section
variable {ι κ κ' α : Type} [Field α] [LinearOrder α]

/-- A layer that computes an affine function of its input: `Dense`, `Conv2D` (no input entry meets two taps of the same output),
`BatchNormalization`, `Flatten`, `Reshape`, `Dropout`. -/
def Lay.Plain : Lay α κ κ' → Prop
  | .dense _ _ => True
  | @Lay.linear _ _ _ _ _ _ L _ _ => ∀ o t t' s, L.src o t = some s → L.src o t' = some s → t = t'
  | .relu _ _ => False
  | .batchNorm _ _ _ sd => ∀ k, 0 < sd k
  | .reshape _ => True
  | .skip => True

/-- The coefficient of input `i` in output `k` of a layer that computes an affine function. -/
def Lay.coef [Fintype κ] [DecidableEq κ] (l : Lay α κ κ') (i : κ) (k : κ') : α :=
  l.eval (fun t => if t = i then 1 else 0) k - l.eval (fun _ => 0) k

/-- Every output depends on at most one input. -/
def Lay.OneInput [Fintype κ] [DecidableEq κ] (l : Lay α κ κ') : Prop := ∀ k i i', l.coef i k ≠ 0 → l.coef i' k ≠ 0 → i = i'

/-- Every input is used by at most one output. -/
def Lay.OneOutput [Fintype κ] [DecidableEq κ] (l : Lay α κ κ') : Prop := ∀ i k k', l.coef i k ≠ 0 → l.coef i k' ≠ 0 → k = k'

/-- `n'` comes from `n` by merging linear layers: two successive linear layers are replaced by one that computes the same function, and
linear layers that compute the identity are removed, any number of times.  With `one`, the outputs of one of the two layers merged depend on
one input each, which in the case of the first layer is not shared. -/
inductive Net.Collapse (one : Prop) : {κ : Type} → Net α ι κ → Net α ι κ → Prop
  | refl {κ : Type} (n : Net α ι κ) : Collapse one n n
  | layer {κ κ' : Type} [Fintype κ] [DecidableEq κ] [Fintype κ'] {n n' : Net α ι κ} (h : Collapse one n n') (l : Lay α κ κ') :
      Collapse one (.layer n l) (.layer n' l)
  | merge {κ : Type} (op : MergeOp) {n0 n1 n0' n1' : Net α ι κ} (h0 : Collapse one n0 n0') (h1 : Collapse one n1 n1') :
      Collapse one (.merge op n0 n1) (.merge op n0' n1')
  | two {κ μ ν : Type} [Fintype κ] [DecidableEq κ] [Fintype μ] [DecidableEq μ] [Fintype ν] (n : Net α ι κ) (l1 : Lay α κ μ)
      (l2 : Lay α μ ν) (l : Lay α κ ν) (h1 : l1.Plain) (h2 : l2.Plain) (h : l.Plain) (hl : ∀ y, l.eval y = l2.eval (l1.eval y))
      (ho : one → l1.OneInput ∧ l1.OneOutput ∨ l2.OneInput) : Collapse one (.layer (.layer n l1) l2) (.layer n l)
  | drop {κ : Type} [Fintype κ] [DecidableEq κ] (n : Net α ι κ) (l : Lay α κ κ) (h : l.Plain) (hl : ∀ y, l.eval y = y) :
      Collapse one (.layer n l) n
  | trans {κ : Type} {n n' n'' : Net α ι κ} (h : Collapse one n n') (h' : Collapse one n' n'') : Collapse one n n''

end

end Decomon
