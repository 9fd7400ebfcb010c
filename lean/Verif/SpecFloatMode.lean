import Verif.SpecFloat

/-!
Specification for the forward methods in rounded arithmetic in every mode, when one operation has the relative error `δ`: how large the computed bounds
can be, and how far they can be from bounding the network.  Everything is known before running: it depends on the weights, on the precision and on the
largest absolute values of the inputs.
-/

namespace Decomon

section
variable {ι κ κ' α : Type} [Field α] [LinearOrder α]

/-- What is known in advance about the bounds of one entry: the size and the error of the constant bounds, and of the affine bounds. -/
structure ModeErr (α : Type) where
  cSize : α
  cSlack : α
  aSize : α
  aSlack : α

/-- The size of the constant bounds that the next layer reads: those of the entry, those computed from its affine bounds in `n` inputs, or the
tighter of both. -/
def ModeErr.readSize (m : Mode) (δ : α) (n : ℕ) (e : ModeErr α) : α :=
  match m with
  | .ibp => e.cSize
  | .affine => (1 + δ) ^ (n + 2) * e.aSize
  | .hybrid => max e.cSize ((1 + δ) ^ (n + 2) * e.aSize)

/-- The error of the constant bounds that the next layer reads. -/
def ModeErr.readSlack (m : Mode) (δ : α) (n : ℕ) (e : ModeErr α) : α :=
  match m with
  | .ibp => e.cSlack
  | .affine => e.aSlack + ((1 + δ) ^ (n + 2) - 1) * e.aSize
  | .hybrid => max e.cSlack (e.aSlack + ((1 + δ) ^ (n + 2) - 1) * e.aSize)

/-- A ReLU: the constant bounds are those that it reads; the affine ones are multiplied by the slopes of its lines. -/
def ModeErr.relu (m : Mode) (δ eps : α) (n : ℕ) (e : ModeErr α) : ModeErr α where
  cSize := e.readSize m δ n
  cSlack := e.readSlack m δ n
  aSize := (1 + δ) ^ 5 / (1 - δ) * (e.aSize + e.readSize m δ n)
  aSlack := e.aSlack + e.readSlack m δ n + eps / 4 + ((1 + δ) ^ 5 / (1 - δ) - 1) * (e.aSize + e.readSize m δ n)

/-- A sum of two entries. -/
def ModeErr.add (m : Mode) (δ : α) (n : ℕ) (e0 e1 : ModeErr α) : ModeErr α where
  cSize := (1 + δ) * (e0.readSize m δ n + e1.readSize m δ n)
  cSlack := e0.readSlack m δ n + e1.readSlack m δ n + δ * (e0.readSize m δ n + e1.readSize m δ n)
  aSize := (1 + δ) * (e0.aSize + e1.aSize)
  aSlack := e0.aSlack + e1.aSlack + δ * (e0.aSize + e1.aSize)

/-- Half of a sum. -/
def ModeErr.average (m : Mode) (δ : α) (n : ℕ) (e0 e1 : ModeErr α) : ModeErr α where
  cSize := (1 + δ) ^ 2 * ((e0.readSize m δ n + e1.readSize m δ n) / 2)
  cSlack := (e0.readSlack m δ n + e1.readSlack m δ n) / 2 + ((1 + δ) ^ 2 - 1) * ((e0.readSize m δ n + e1.readSize m δ n) / 2)
  aSize := (1 + δ) ^ 2 * ((e0.aSize + e1.aSize) / 2)
  aSlack := (e0.aSlack + e1.aSlack) / 2 + ((1 + δ) ^ 2 - 1) * ((e0.aSize + e1.aSize) / 2)

/-- The layers.  The linear ones act on the constant bounds as on the affine ones. -/
def Lay.modeErr [Fintype κ] (m : Mode) (δ eps bn : α) (n : ℕ) : Lay α κ κ' → (κ → ModeErr α) → κ' → ModeErr α
  | .relu _ _, e => fun k => (e k).relu m δ eps n
  | .skip, e => e
  | l, e => fun k =>
    { cSize := l.growAff δ bn n (fun j => (e j).readSize m δ n) k
      cSlack := l.spreadTol eps (fun j => (e j).readSlack m δ n) k + l.lossAff δ bn n (fun j => (e j).readSize m δ n) k
      aSize := l.growAff δ bn n (fun j => (e j).aSize) k
      aSlack := l.spreadTol eps (fun j => (e j).aSlack) k + l.lossAff δ bn n (fun j => (e j).aSize) k }

/-- The merge layers on two inputs, except `Multiply`: a maximum is a difference, a ReLU and a sum. -/
def MergeOp.modeErr (m : Mode) (δ eps : α) (n : ℕ) (op : MergeOp) (e0 e1 : ModeErr α) : ModeErr α :=
  match op with
  | .add | .subtract => e0.add m δ n e1
  | .average => e0.average m δ n e1
  | .maximum | .minimum => ((e1.add m δ n e0).relu m δ eps n).add m δ n e0
  | .multiply => ⟨0, 0, 0, 0⟩

/-- The nodes of a network whose inputs are at most `X` in absolute value. -/
def Net.modeErr [Fintype ι] (m : Mode) (δ eps bn : α) (X : ι → α) : {κ : Type} → Net α ι κ → κ → ModeErr α
  | _, .input => fun i => ⟨X i, 0, X i, 0⟩
  | _, @Net.layer _ _ _ _ _ _ _ n l => l.modeErr m δ eps bn (Fintype.card ι) (n.modeErr m δ eps bn X)
  | _, .merge op n0 n1 => fun k => op.modeErr m δ eps (Fintype.card ι) (n0.modeErr m δ eps bn X k) (n1.modeErr m δ eps bn X k)

/-- The error of the score of `get_adv_box` for two outputs: of a difference of constant bounds, or of a sum over the `n` inputs. -/
def ModeErr.score (m : Mode) (δ : α) (n : ℕ) (ej ec : ModeErr α) : α :=
  let const := ej.cSlack + ec.cSlack + δ * (ej.cSize + ec.cSize)
  let aff := ej.aSlack + ec.aSlack + ((1 + δ) ^ (n + 3) - 1) * (ej.aSize + ec.aSize)
  match m with
  | .ibp => const
  | .affine => aff
  | .hybrid => max const aff

/-- The same for two outputs of a network. -/
def Net.scoreErr [Fintype ι] (m : Mode) (δ eps bn : α) (X : ι → α) (n : Net α ι κ) (j c : κ) : α :=
  (n.modeErr m δ eps bn X j).score m δ (Fintype.card ι) (n.modeErr m δ eps bn X c)

end

end Decomon
