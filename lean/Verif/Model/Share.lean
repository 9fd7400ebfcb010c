import Verif.Model.Convert

/-!
Sharing the variables of a layer with another one, keras_utils.py:158-222, used by `split_activation` (models/utils.py:187-218).

Keras 3 objects: setting an attribute to a variable adds the variable to the tracker of the layer unless it is there already, and raises
`ValueError` when the tracker is locked (after `build`).  Setting a property without setter raises `AttributeError`, after the tracking.
Simplified: the tracker has one list of variables (Keras keeps the trainable ones and the others in two lists).
-/

namespace Decomon

/-- A Keras layer: `readOnly n` when `n` is a property without setter, whose value is the attribute `_n` (`kernel` of `Dense`, `EinsumDense`
and of the convolutions).  Attributes as in `KLayer`: `none` is no such attribute, `some none` is Python's `None`. -/
structure ShareLayer where
  built : Bool
  attr : String → Option (Option ℕ)
  readOnly : String → Bool
  store : List ℕ

namespace ShareLayer

/-- The attribute behind the name `n`. -/
def key (l : ShareLayer) (n : String) : String := if l.readOnly n then "_" ++ n else n

/-- `getattr(layer, n)`. -/
def get (l : ShareLayer) (n : String) : Except PyErr (Option ℕ) :=
  match l.attr (l.key n) with
  | none => .error .attributeError
  | some v => .ok v

/-- `getattr(layer, "_" + n)`. -/
def getHidden (l : ShareLayer) (n : String) : Except PyErr (Option ℕ) :=
  match l.attr ("_" ++ n) with
  | none => .error .attributeError
  | some v => .ok v

/-- `Tracker.track` of Keras 3. -/
def track (l : ShareLayer) : Option ℕ → Except PyErr ShareLayer
  | none => .ok l
  | some v => if v ∈ l.store then .ok l else if l.built then .error .valueError else .ok { l with store := l.store ++ [v] }

/-- `Tracker.untrack` of Keras 3. -/
def untrack (l : ShareLayer) : Option ℕ → ShareLayer
  | none => l
  | some v => { l with store := l.store.filter fun x => x ≠ v }

/-- `object.__setattr__(layer, n, v)` for a name that is not a property. -/
def setRaw (l : ShareLayer) (n : String) (v : Option ℕ) : ShareLayer := { l with attr := Function.update l.attr n (some v) }

/-- The first loop of `share_weights_and_build`, keras_utils.py:192-200. -/
def shareBefore (orig : ShareLayer) : List String → ShareLayer → Except PyErr ShareLayer
  | [], l => .ok l
  | n :: t, l => do
    let w ← orig.get n
    let l1 ← l.track w
    if l.readOnly n then
      let w' ← orig.getHidden n
      let l2 ← l1.track w'
      shareBefore orig t (l2.setRaw ("_" ++ n) w')
    else shareBefore orig t (l1.setRaw n w)

/-- The effect of `new_layer(inp)` (keras_utils.py:203) on the variables: `build` makes a variable for each name in `own` (`none` stands for an
attribute set to `None`, as `bias` with `use_bias=False`), and the tracker is locked. -/
def build (l : ShareLayer) (own : List (String × Option ℕ)) : ShareLayer :=
  { l with
    built := true
    attr := own.foldl (fun a p => Function.update a (l.key p.1) (some p.2)) l.attr
    store := l.store ++ own.filterMap Prod.snd }

/-- The second loop of `share_weights_and_build`, keras_utils.py:205-217. -/
def shareAfter (orig : ShareLayer) : List String → ShareLayer → Except PyErr ShareLayer
  | [], l => .ok l
  | n :: t, l => do
    let w ← orig.get n
    let drop ← l.get n
    let l1 ← l.track w
    if l.readOnly n then
      let w' ← orig.getHidden n
      let drop' ← l.getHidden n
      let l2 ← l1.track w'
      shareAfter orig t ((l2.setRaw ("_" ++ n) w').untrack drop')
    else shareAfter orig t ((l1.setRaw n w).untrack drop)

end ShareLayer

/-- Models `share_weights_and_build`, keras_utils.py:175-217.  `called` says whether the original layer has been called on a symbolic tensor
(otherwise its property `input` raises, line 189; the source says with a `ValueError`). -/
def shareWeightsAndBuild (called : Bool) (orig new : ShareLayer) (own : List (String × Option ℕ)) (names : List String) :
    Except PyErr ShareLayer :=
  if orig.built = false then .error .valueError
  else if new.built then .error .valueError
  else if called = false then .error .valueError
  else do
    let l ← ShareLayer.shareBefore orig names new
    ShareLayer.shareAfter orig names (l.build own)

/-- Models `share_layer_all_weights`, keras_utils.py:158-172; `nameOf` gives the names of the variables. -/
def shareLayerAllWeights (nameOf : ℕ → String) (called : Bool) (orig new : ShareLayer) (own : List (String × Option ℕ)) :
    Except PyErr ShareLayer :=
  shareWeightsAndBuild called orig new own (orig.store.map nameOf)

/-- Models the first part of `split_activation`, models/utils.py:194-203: the names are those of the variables that a layer without the
activation makes. -/
def splitShare (called : Bool) (layer new : ShareLayer) (own : List (String × ℕ)) : Except PyErr ShareLayer :=
  shareWeightsAndBuild called layer new (own.map fun p => (p.1, some p.2)) (own.map Prod.fst)

/-- Models `reset_layer_all_weights`, keras_utils.py:144-155. -/
def resetLayerAllWeights {V S : Type} [DecidableEq S] (nameOf : ℕ → String) (shape : V → S) (new orig : KLayer) (mem : ℕ → V) :
    Except PyErr Unit × (ℕ → V) :=
  resetLayer shape new orig (new.weights.map nameOf) mem

end Decomon
