import Verif.Model.State
import Verif.Model.Wrapper

/-!
Model of `reset_finetuning` (`/repo/src/decomon/models/models.py` and the layers), of the calls made by
`/repo/src/decomon/wrapper_with_tuning.py`, of `get_AB` and `get_AB_finetune`, and of the target labels of `get_adv_noise` and
`check_adv_box` (`/repo/src/decomon/wrapper.py`).
-/

namespace Decomon

/-! ### Finetuning parameters -/

section Reset
variable {α : Type*} [One α]

/-- A layer as far as its finetuning parameters go.  `alphas`: the values of `beta_u_f`, `beta_l_f` (decomon_layers.py:573-592), resp. of the
parameters of a BackwardActivation (backward_layers.py:271-371), each one flattened. -/
inductive TuneLayer (α : Type*)
  | forwardAct (finetune : Bool) (m : Mode) (act : String) (alphas : List (List α))
  | backwardAct (alphas : List (List α))
  | other

/-- The values of the parameters. -/
def TuneLayer.alphas : TuneLayer α → List (List α)
  | .forwardAct _ _ _ a => a
  | .backwardAct a => a
  | .other => []

/-- Models `reset_finetuning` of DecomonActivation, decomon_layers.py:624-631.  `valueIsMethod`: whether `Variable.value` is a method (Keras
2) or a property (Keras 3): `self.beta_l_f.value()` then calls a tensor, which raises `TypeError`.  BackwardActivation inherits the method of
`BackwardLayer`, which does nothing (backward_layers/core.py:134-135), as all other layers (layers/core.py:236-237). -/
def TuneLayer.reset (valueIsMethod : Bool) : TuneLayer α → Except PyErr (TuneLayer α)
  | .forwardAct ft m act a =>
    if ft = true ∧ m ≠ .ibp ∧ act ≠ "linear" then
      if valueIsMethod then .ok (.forwardAct ft m act (a.map fun v => v.map fun _ => 1)) else .error .typeError
    else .ok (.forwardAct ft m act a)
  | l => .ok l

/-- Models `DecomonModel.reset_finetuning`, models.py:93-96: the layers afterwards and the exception, if any. -/
def modelReset (valueIsMethod : Bool) : List (TuneLayer α) → List (TuneLayer α) × Option PyErr
  | [] => ([], none)
  | l :: t =>
    match l.reset valueIsMethod with
    | .error e => (l :: t, some e)
    | .ok l' => (l' :: (modelReset valueIsMethod t).1, (modelReset valueIsMethod t).2)

end Reset

/-! ### The tuning functions -/

section Tuning
variable {ι α : Type*} [Fintype ι] [Field α] [LinearOrder α]

/-- What the caller passes as `model`: a DecomonModel, or a Keras model with inputs of the given shape (without the batch axis). -/
inductive TuneModel
  | decomon
  | keras (inputShape : List ℕ)

/-- Models one batch of `get_upper_box_tuning` and `get_lower_box_tuning`, wrapper_with_tuning.py:38-95 and 124-182, up to the first
exception: `np.min` of no boxes; inconsistent boxes; `get_upper_box` is taken to succeed; with a Keras model `input_shape[2:]` of a flat
input is empty and `np.prod` of it is a float, which `reshape` refuses, otherwise there is no method `freeze_weights`; with a DecomonModel
`Adam(lr=lr)` raises `ValueError`: the optimisers of Keras 3 reject arguments they do not know (their argument is `learning_rate`).  Returns
whether `model.freeze_weights()` has run, and the exception. -/
def tuningBatch (model : TuneModel) (bs : List (BoxOf ι α)) : Bool × PyErr :=
  if bs = [] then (false, .valueError)
  else if badBoxes bs then (false, .userWarning)
  else
    match model with
    | .keras s => if s.length ≤ 1 then (false, .typeError) else (false, .attributeError)
    | .decomon => (true, .valueError)

/-- Models the call with `batch_size = batch` (`0` for values of at most one of `get_upper_box_tuning`): the first batch raises. -/
def tuningCall (batch : ℕ) (model : TuneModel) (bs : List (BoxOf ι α)) : Bool × PyErr :=
  if bs = [] then (false, .valueError)
  else if badBoxes bs then (false, .userWarning)
  else
    match model with
    | .keras s => if s.length ≤ 1 then (false, .typeError) else if batch = 0 then tuningBatch model bs else tuningBatch model (bs.take batch)
    | .decomon => if batch = 0 then tuningBatch model bs else tuningBatch model (bs.take batch)

end Tuning

/-! ### get_AB -/

section AB
variable {ω : Type*}

/-- A layer of a DecomonModel, as `get_AB` reads it: `name`, `layer.name`, `rec`, and `grid_finetune` or `alpha_b_l`. -/
structure ABLayer (ω : Type*) where
  name : List Char
  layerName : List Char
  rec_ : ℕ
  value : ω

/-- The pattern `"backward_activation"`, models.py:138 and 157. -/
def abPattern : List Char := "backward_activation".toList

/-- `f"{layer.name}_backward"`, backward_layers/convert.py:35. -/
def toBackwardName (n : List Char) : List Char := n ++ "_backward".toList

/-- `f"{layer.layer.name}_{layer.rec}"`, models.py:140 and 159. -/
def abKey (l : ABLayer ω) : List Char := l.layerName ++ '_' :: (toString l.rec_).toList

/-- The loop of `get_AB` and `get_AB_finetune`, models.py:136-142 and 155-161; `len(name.split(p)) > 1` when `p` occurs in `name`.  A
dictionary is a list of pairs in the order of insertion. -/
def abLoop : List (ABLayer ω) → List (List Char × ω) → List (List Char × ω)
  | [], d => d
  | l :: t, d =>
    if abPattern <:+: l.name then
      if abKey l ∈ d.map Prod.fst then abLoop t d else abLoop t (d ++ [(abKey l, l.value)])
    else abLoop t d

/-- Models `get_AB` (`needFinetune = false`, models.py:131-143) and `get_AB_finetune` (`needFinetune = true`, models.py:146-163).
`gridMilp`: the domain is a `GridDomain` with the option milp. -/
def getAB (needFinetune gridMilp finetune : Bool) (layers : List (ABLayer ω)) : List (List Char × ω) :=
  if gridMilp = false then [] else if needFinetune = true ∧ finetune = false then [] else abLoop layers []

end AB

/-! ### Target labels -/

section Targets
variable {ι κ X α : Type*} [Fintype ι] [Fintype κ] [Nonempty κ] [Field α] [LinearOrder α]

/-- The argument `target_labels`: absent, an integer, or one 0/1 vector for every sample. -/
inductive TargetArg (κ α : Type*)
  | absent
  | int (c : ℤ)
  | rows (t : List (κ → α))

/-- Models the preparation of the targets in `get_adv_noise`, wrapper.py:966-969: an integer is replaced by the source labels
(`np.zeros(...) + source_labels`). -/
def noiseTargets (src : List (κ → α)) : TargetArg κ α → Option (List (κ → α))
  | .absent => none
  | .int _ => some src
  | .rows t => some t

/-- The scores of `get_adv_noise` for one batch in ibp mode, wrapper.py:1012-1034 and 1095-1112, for the batch `rows` of bounds and source
labels and an array of targets with any number of rows: the reshape of line 969 to the number of samples of the batch, the product of the masks and the
subtraction in place raise `ValueError` when the sizes do not fit. -/
def noiseBatch (rows : List (Full X ι κ α × (κ → α))) : Option (List (κ → α)) → Except PyErr (List α)
  | none => .ok (maskedScores (rows.map fun r => (ibpPair r.1, r.2, fun k => 1 - r.2 k)))
  | some t =>
    if (t.length * Fintype.card κ) % rows.length ≠ 0 then .error .valueError
    else if t.length ≠ rows.length ∧ t.length ≠ 1 ∧ rows.length ≠ 1 then .error .valueError
    else if rows.length < t.length then .error .valueError
    else if t.length = rows.length then .ok (maskedScores (List.zipWith (fun r tgt => (ibpPair r.1, r.2, tgt)) rows t))
    else .ok (maskedScores (rows.map fun r => (ibpPair r.1, r.2, (t.head?.getD fun _ => 0))))

/-- Models `get_adv_noise` on a DecomonModel in ibp mode with target labels, wrapper.py:964-1006: after `astype(np.int_)` the dtype begins
with `int`, so that every batch gets the whole array of targets (lines 980-990).  `batch = 0` stands for `batch_size ≤ 0`. -/
def advNoiseTargets (batch : ℕ) (rows : List (Full X ι κ α × (κ → α))) (tgt : TargetArg κ α) : Except PyErr (List α) :=
  let t := noiseTargets (rows.map Prod.snd) tgt
  if 0 < batch then (collect ((batches batch rows).map fun r => noiseBatch r t)).map List.flatten
  else noiseBatch rows t

/-- Models `check_adv_box` with target labels, wrapper.py:322-418: an integer has no method `reshape`; every batch gets the whole array
(lines 337-350), which it reshapes to its own number of samples (line 324) and does not use (line 418). -/
def checkTargets (net : BoxOf ι α → Full X ι κ α) (m : Mode) (batch : ℕ) (rows : List (BoxOf ι α × (κ → α))) (tgt : TargetArg κ α) :
    Except PyErr (List α) :=
  let one (n : Option ℕ) (r : List (BoxOf ι α × (κ → α))) : Except PyErr (List α) :=
    if badBoxes (r.map Prod.fst) then .error .userWarning
    else if n.any fun n => (n * Fintype.card κ) % r.length ≠ 0 then .error .valueError
    else checkAdvBase net m (r.map fun s => ⟨s.1, s.2, fun k => 1 - s.2 k⟩)
  let all (n : Option ℕ) : Except PyErr (List α) :=
    if 0 < batch then (collect ((batches batch rows).map (one n))).map List.flatten else one n rows
  if badBoxes (rows.map Prod.fst) then .error .userWarning
  else
    match tgt with
    | .absent => all none
    | .int _ => .error .attributeError
    | .rows t => if (t.length * Fintype.card κ) % rows.length ≠ 0 then .error .valueError else all (some t.length)

end Targets

end Decomon
