import Verif.SpecNet

/-! Specification: a classifier whose last layer is a Dense layer, with its outputs divided by a temperature and its biases changed. -/

namespace Decomon

variable {ι κ μ α : Type} [Field α]

/-- The Dense layer on top of `n`, with weights `K` and biases `b`. -/
def Net.logits [Fintype κ] [DecidableEq κ] [Fintype μ] (n : Net α ι κ) (K : κ → μ → α) (b : μ → α) : Net α ι μ := .layer n (.dense K b)

/-- The same layer with all weights and biases multiplied by `c` and `d j` added to the bias of output `j`. -/
def Net.rescaledLogits [Fintype κ] [DecidableEq κ] [Fintype μ] (n : Net α ι κ) (K : κ → μ → α) (b : μ → α) (c : α) (d : μ → α) : Net α ι μ :=
  .layer n (.dense (fun i j => c * K i j) fun j => c * b j + d j)

end Decomon
