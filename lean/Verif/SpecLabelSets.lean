import Verif.Model.Wrapper

/-! Specification for sets of labels. -/

namespace Decomon

variable {ι κ α : Type*} [Zero α] [One α]

/-- The same box, with some of the source labels and some of the target labels. -/
def AdvSample.Within (r' r : AdvSample ι κ α) : Prop :=
  r'.box = r.box ∧ (∀ k, r'.src k = 1 → r.src k = 1) ∧ ∀ k, r'.tgt k = 1 → r.tgt k = 1

/-- The same box, with the target `t` and the source `s` only. -/
def AdvSample.onePair [DecidableEq κ] (r : AdvSample ι κ α) (t s : κ) : AdvSample ι κ α :=
  ⟨r.box, fun k => if k = s then 1 else 0, fun k => if k = t then 1 else 0⟩

end Decomon
