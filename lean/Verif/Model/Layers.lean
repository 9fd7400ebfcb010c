import Verif.Model.LayerUtils

/-!
Model of `/repo/src/decomon/layers/decomon_layers.py`, `decomon_reshape.py`, `decomon_merge_layers.py` and of the fast branch of
`maxpooling.py`.
-/

namespace Decomon

/-! ### Linear layers -/

/-- Which input entry and which kernel entry meet, for output entry `o` and tap `t` (`none`: zero padding).  This covers
`K.dot` on inputs of any rank and `K.conv` with any stride, padding, dilation and data format. -/
structure LinIndex (S O T Q : Type*) where
  src : O → T → Option S
  kidx : O → T → Q

section Lin
variable {S O T Q α : Type*} [Fintype T] [Field α]

/-- `K.conv(x, kernel, ...)` / `K.dot(x, kernel)`. -/
def LinIndex.apply (L : LinIndex S O T Q) (kernel : Q → α) (x : S → α) (o : O) : α :=
  ∑ t, kernel (L.kidx o t) * (L.src o t).elim 0 x

end Lin

/-- `K.dot(x, kernel)` for `x` of shape `outer × n`, kernel of shape `n × m` (decomon_layers.py:447-471). -/
def denseIndex (β n m : Type*) : LinIndex (β × n) (β × m) n (n × m) where
  src o t := some (o.1, t)
  kidx o t := (t, o.2)

/-- The entry of a channels-last image met at row `r`, column `c` of the padded image, if any. -/
def paddedSrc {h w cin : ℕ} (p0 p1 r c : ℕ) (ch : Fin cin) : Option (Fin h × Fin w × Fin cin) :=
  if hr : p0 ≤ r ∧ r - p0 < h then
    if hc : p1 ≤ c ∧ c - p1 < w then some (⟨r - p0, hr.2⟩, ⟨c - p1, hc.2⟩, ch) else none
  else none

/-- `K.conv` of a channels-last image `h × w × cin` with a kernel `kh × kw × cin × cout`, output size `oh × ow`, strides
`s`, dilation `d` and zero padding `p` before the first row/column (decomon_layers.py:159-177). -/
def conv2dIndex (h w cin kh kw cout oh ow s0 s1 d0 d1 p0 p1 : ℕ) :
    LinIndex (Fin h × Fin w × Fin cin) (Fin oh × Fin ow × Fin cout) (Fin kh × Fin kw × Fin cin)
      (Fin kh × Fin kw × Fin cin × Fin cout) where
  src o t := paddedSrc p0 p1 (o.1.val * s0 + t.1.val * d0) (o.2.1.val * s1 + t.2.1.val * d1) t.2.2
  kidx o t := (t.1, t.2.1, t.2.2, o.2.2)

section LinLayers
variable {X ι S O T Q α : Type*} [Fintype T] [Field α] [LinearOrder α]

/-- Models `DecomonConv2D.call` (general branch), decomon_layers.py:139-261, and `DecomonDense.call` without backward bounds
(general branch), decomon_layers.py:421-511: the two bodies are the same up to the linear operator.
`bias` is the bias broadcast to the output shape (zero when `use_bias=False`). -/
def linearLayerT (D : PertDomain X ι α) (m : Mode) (dc : Bool) (L : LinIndex S O T Q) (kernel : Q → α) (bias : O → α)
    (f : Full X ι S α) : Full X ι O α :=
  let f := f.tighten D m false true
  let pos : (S → α) → O → α := L.apply fun q => max 0 (kernel q)
  let neg : (S → α) → O → α := L.apply fun q => min 0 (kernel q)
  { x := f.x
    uc := fun o => if getIbp m then pos f.uc o + neg f.lc o + bias o else 0
    lc := fun o => if getIbp m then pos f.lc o + neg f.uc o + bias o else 0
    wu := fun i o => if getAffine m then pos (f.wu i) o + neg (f.wl i) o else 0
    bu := fun o => if getAffine m then pos f.bu o + neg f.bl o + bias o else 0
    wl := fun i o => if getAffine m then pos (f.wl i) o + neg (f.wu i) o else 0
    bl := fun o => if getAffine m then pos f.bl o + neg f.bu o + bias o else 0
    h := fun o => if dc then pos f.h o + neg f.g o + max 0 (bias o) else 0
    g := fun o => if dc then pos f.g o + neg f.h o + min 0 (bias o) else 0 }

end LinLayers

section Dense
variable {X ι n μ α : Type*} [Fintype n] [Field α] [LinearOrder α]

/-- Models `DecomonDense.call` without backward bounds on inputs of rank 2, general branch, decomon_layers.py:421-511. -/
def denseT (D : PertDomain X ι α) (m : Mode) (dc : Bool) (kernel : n → μ → α) (bias : μ → α) (f : Full X ι n α) :
    Full X ι μ α :=
  let f := f.tighten D m false true
  let kp : n → μ → α := fun t o => max 0 (kernel t o)
  let kn : n → μ → α := fun t o => min 0 (kernel t o)
  let dot : (n → μ → α) → (n → α) → μ → α := fun k v o => ∑ t, k t o * v t
  { x := f.x
    uc := fun o => if getIbp m then dot kp f.uc o + dot kn f.lc o + bias o else 0
    lc := fun o => if getIbp m then dot kp f.lc o + dot kn f.uc o + bias o else 0
    wu := fun i o => if getAffine m then dot kp (f.wu i) o + dot kn (f.wl i) o else 0
    bu := fun o => if getAffine m then dot kp f.bu o + dot kn f.bl o + bias o else 0
    wl := fun i o => if getAffine m then dot kp (f.wl i) o + dot kn (f.wu i) o else 0
    bl := fun o => if getAffine m then dot kp f.bl o + dot kn f.bu o + bias o else 0
    h := fun o => if dc then dot kp f.h o + dot kn f.g o + max 0 (bias o) else 0
    g := fun o => if dc then dot kp f.g o + dot kn f.h o + min 0 (bias o) else 0 }

/-- Models the affine part of `DecomonDense.call` when `w_u` has the rank of `b_u` (the layer input is the model input
itself), decomon_layers.py:461-466 and 485-487: returns `(w_u, b_u, w_l, b_l)`.  The incoming `b_u`, `b_l` are not used. -/
def denseIdentityT (kernel : n → μ → α) (bias : μ → α) : (n → μ → α) × (μ → α) × (n → μ → α) × (μ → α) :=
  (kernel, fun o => 0 + bias o, kernel, fun o => 0 + bias o)

/-- Models `DecomonDense.call` with `has_backward_bounds`, constant bounds, decomon_layers.py:434-439, 460-462, 494-498 (general branch,
`dc_decomp=False`), contracted by `Dot(1)` as `set_back_bounds` would set it (417-419).  `back` is the last input `C`, of shape
`(units, units)` as `input_spec` requires (391).  The bias has the shape `(1, 1, units)` when it is multiplied by `C` (495): its entries meet the
columns of `C`, not its rows.  `bias` is zero when `use_bias=False`.  In affine and hybrid mode the code raises `NotImplementedError` (482). -/
def denseBackT [Fintype μ] (D : PertDomain X ι α) (m : Mode) (kernel : n → μ → α) (bias : μ → α) (back : μ → μ → α)
    (f : Full X ι n α) : Except PyErr ((μ → α) × (μ → α)) :=
  if getAffine m then .error .notImplemented
  else
    let f := f.tighten D m false true
    let k : n → μ → α := fun t c => ∑ o, kernel t o * back o c
    let dot : (n → μ → α) → (n → α) → μ → α := fun k v o => ∑ t, k t o * v t
    let kp : n → μ → α := fun t c => max 0 (k t c)
    let kn : n → μ → α := fun t c => min 0 (k t c)
    let b : μ → α := fun c => ∑ o, back o c * bias c
    .ok (fun c => dot kp f.uc c + dot kn f.lc c + b c, fun c => dot kp f.lc c + dot kn f.uc c + b c)

/-- The attributes read by `DecomonDense.set_back_bounds`. -/
structure BackBoundsObj where
  activation : Option String
  activationName : Option String
  built : Bool
  shapeBuild : Option (List ℕ)
  hasBack : Bool

/-- A new `DecomonDense`, decomon_layers.py:295-321: the activation is removed from the arguments, so that `Dense.__init__` of Keras sets
`self.activation` to the function `linear`; no attribute `activation_name` is set (compare `DecomonActivation`, line 571). -/
def newDense : BackBoundsObj := ⟨some "linear", none, false, none, false⟩

/-- Models `DecomonDense.set_back_bounds`, decomon_layers.py:407-419: reading a missing `activation_name` raises `AttributeError`.  Left out:
`build` and the operator. -/
def BackBoundsObj.setBackBounds (o : BackBoundsObj) (has : Bool) : Except PyErr BackBoundsObj :=
  match o.activation, o.activationName with
  | some _, none => .error .attributeError
  | some _, some a =>
    if a ≠ "linear" ∧ has then .error .valueError
    else if o.built ∧ has ∧ o.shapeBuild = none then .error .valueError else .ok { o with hasBack := has }
  | none, _ => if o.built ∧ has ∧ o.shapeBuild = none then .error .valueError else .ok { o with hasBack := has }

end Dense

section Norm
variable {X ι κ α : Type*} [Field α] [LinearOrder α]

/-- Models `DecomonBatchNormalization.call` in inference, decomon_layers.py:815-879 (`dc_decomp=False`; otherwise it raises).
Parameters broadcast to the layer shape; `sd` is `K.sqrt(moving_variance + epsilon)`; `gamma = 1` if `scale=False`,
`beta = 0` if `center=False`. -/
def batchNormT (D : PertDomain X ι α) (m : Mode) (gamma beta mean sd : κ → α) (f : Full X ι κ α) : Full X ι κ α :=
  let f := f.tighten D m false true
  { x := f.x
    uc := fun k =>
      if getIbp m then
        max 0 (gamma k) * ((f.uc k - mean k) / sd k) + min 0 (gamma k) * ((f.lc k - mean k) / sd k) + beta k
      else 0
    lc := fun k =>
      if getIbp m then
        max 0 (gamma k) * ((f.lc k - mean k) / sd k) + min 0 (gamma k) * ((f.uc k - mean k) / sd k) + beta k
      else 0
    wu := fun i k =>
      if getAffine m then max 0 (gamma k) * (f.wu i k / sd k) + min 0 (gamma k) * (f.wl i k / sd k) else 0
    bu := fun k =>
      if getAffine m then
        max 0 (gamma k) * ((f.bu k - mean k) / sd k) + min 0 (gamma k) * ((f.bl k - mean k) / sd k) + beta k
      else 0
    wl := fun i k =>
      if getAffine m then max 0 (gamma k) * (f.wl i k / sd k) + min 0 (gamma k) * (f.wu i k / sd k) else 0
    bl := fun k =>
      if getAffine m then
        max 0 (gamma k) * ((f.bl k - mean k) / sd k) + min 0 (gamma k) * ((f.bu k - mean k) / sd k) + beta k
      else 0
    h := fun _ => 0
    g := fun _ => 0 }

/-- Models the `training` guard of `DecomonBatchNormalization.call` (decomon_layers.py:818-819) and
`DecomonDropout.call` (932-934). -/
def inferenceOnly {β : Type*} (training : Bool) (v : β) : Except PyErr β :=
  if training then .error .notImplemented else .ok v

/-- Models `DecomonDropout.call`, decomon_layers.py:931-937. -/
def dropoutT (training : Bool) (f : Full X ι κ α) : Except PyErr (Full X ι κ α) := inferenceOnly training f

end Norm

section Reindex
variable {X ι κ κ' α : Type*} [Field α] [LinearOrder α]

/-- Models `DecomonFlatten.call` (decomon_layers.py:721-757, for `channels_last`; see `Model/Flatten.lean`), `DecomonReshape.call` (decomon_reshape.py:72-114) and
`DecomonPermute.call` (decomon_reshape.py:179-221): the output entry `k` is the input entry `e k`; the weights undergo the same
re-indexing, for each model input coordinate. -/
def reindexT (D : PertDomain X ι α) (m : Mode) (dc : Bool) (e : κ' → κ) (f : Full X ι κ α) : Full X ι κ' α :=
  let f := f.tighten D m false true
  { x := f.x
    uc := fun k => if getIbp m then f.uc (e k) else 0
    lc := fun k => if getIbp m then f.lc (e k) else 0
    wu := fun i k => if getAffine m then f.wu i (e k) else 0
    bu := fun k => if getAffine m then f.bu (e k) else 0
    wl := fun i k => if getAffine m then f.wl i (e k) else 0
    bl := fun k => if getAffine m then f.bl (e k) else 0
    h := fun k => if dc then f.h (e k) else 0
    g := fun k => if dc then f.g (e k) else 0 }

end Reindex

/-! ### Merge layers -/

section Merge
variable {X ι κ α : Type*} [Field α] [LinearOrder α]

/-- Models `DecomonAdd.call`, decomon_merge_layers.py:118-157, on a non-empty list of merged inputs (`dc_decomp=False`;
otherwise it raises). -/
def addLayerT (D : PertDomain X ι α) (m : Mode) (f0 : Full X ι κ α) (fs : List (Full X ι κ α)) : Full X ι κ α :=
  let l := (f0 :: fs).map fun f => f.tighten D m false true
  { x := f0.x
    uc := fun k => if getIbp m then (l.map fun f => f.uc k).sum else 0
    lc := fun k => if getIbp m then (l.map fun f => f.lc k).sum else 0
    wu := fun i k => if getAffine m then (l.map fun f => f.wu i k).sum else 0
    bu := fun k => if getAffine m then (l.map fun f => f.bu k).sum else 0
    wl := fun i k => if getAffine m then (l.map fun f => f.wl i k).sum else 0
    bl := fun k => if getAffine m then (l.map fun f => f.bl k).sum else 0
    h := fun _ => 0
    g := fun _ => 0 }

/-- Models `DecomonAverage.call`, decomon_merge_layers.py:189-228; `self.op` is the Keras average. -/
def averageLayerT (D : PertDomain X ι α) (m : Mode) (f0 : Full X ι κ α) (fs : List (Full X ι κ α)) : Full X ι κ α :=
  let l := (f0 :: fs).map fun f => f.tighten D m false true
  let n : α := ((f0 :: fs).length : α)
  { x := f0.x
    uc := fun k => if getIbp m then (l.map fun f => f.uc k).sum / n else 0
    lc := fun k => if getIbp m then (l.map fun f => f.lc k).sum / n else 0
    wu := fun i k => if getAffine m then (l.map fun f => f.wu i k).sum / n else 0
    bu := fun k => if getAffine m then (l.map fun f => f.bu k).sum / n else 0
    wl := fun i k => if getAffine m then (l.map fun f => f.wl i k).sum / n else 0
    bl := fun k => if getAffine m then (l.map fun f => f.bl k).sum / n else 0
    h := fun _ => 0
    g := fun _ => 0 }

/-- Models `DecomonSubtract.call`, decomon_merge_layers.py:259-277. -/
def subtractLayerT (D : PertDomain X ι α) (m : Mode) (dc : Bool) (l : List (Full X ι κ α)) :
    Except PyErr (Full X ι κ α) :=
  if dc then .error .notImplemented
  else match l with
    | [f0, f1] => .ok (subtractT D m f0 f1)
    | _ => .error .valueError

/-- Models `DecomonMaximum.call`, decomon_merge_layers.py:371-398, on the inputs `f0 :: fs`: nothing is done for one input,
otherwise `maximum` is folded from the left. -/
def maximumLayerT (D : PertDomain X ι α) (m : Mode) (eps : α) (f0 : Full X ι κ α) (fs : List (Full X ι κ α)) :
    Full X ι κ α :=
  fs.foldl (fun acc f => maximumT D m false eps (fun _ => 1) acc f) f0

/-- Models `DecomonMinimum.call`, decomon_merge_layers.py:308-340. -/
def minimumLayerT (D : PertDomain X ι α) (m : Mode) (eps : α) (f0 : Full X ι κ α) (fs : List (Full X ι κ α)) :
    Full X ι κ α :=
  match fs with
  | [] => f0
  | _ => minusT D m (maximumLayerT D m eps (minusT D m f0) (fs.map (minusT D m)))

/-- Models `DecomonMultiply.call`, decomon_merge_layers.py:510-537. -/
def multiplyLayerT (D : PertDomain X ι α) (m : Mode) (f0 : Full X ι κ α) (fs : List (Full X ι κ α)) : Full X ι κ α :=
  fs.foldl (fun acc f => multiplyT D m acc f) f0

end Merge

section Concat
variable {X ι α : Type*} [Field α] [LinearOrder α] {J : Type*} {κ : J → Type*}

/-- Models `DecomonConcatenate.call`, decomon_merge_layers.py:440-479: an entry of the output is a pair (input, entry of that
input).  `j0` is the first input.  (`axis = -1` or `axis ≥ 1`, where constants and weights are concatenated on the same axis.) -/
def concatLayerT (D : PertDomain X ι α) (m : Mode) (j0 : J) (fs : (j : J) → Full X ι (κ j) α) :
    Full X ι (Sigma κ) α :=
  let l := fun j => (fs j).tighten D m false true
  { x := (fs j0).x
    uc := fun k => if getIbp m then (l k.1).uc k.2 else 0
    lc := fun k => if getIbp m then (l k.1).lc k.2 else 0
    wu := fun i k => if getAffine m then (l k.1).wu i k.2 else 0
    bu := fun k => if getAffine m then (l k.1).bu k.2 else 0
    wl := fun i k => if getAffine m then (l k.1).wl i k.2 else 0
    bl := fun k => if getAffine m then (l k.1).bl k.2 else 0
    h := fun _ => 0
    g := fun _ => 0 }

end Concat

section Dot
variable {X ι α κ0 κ1 o0 o1 n : Type*} [Fintype n] [Field α] [LinearOrder α]

/-- The entries of a tensor list moved (or repeated) along a re-indexing: `permute_dimensions` (layers/utils.py:524-587, for
`axis = -1`), `broadcast` (590-642) and `expand_dims` (994-1043) with `tight=False`. -/
def Full.reindex {κ κ' : Type*} (e : κ' → κ) (f : Full X ι κ α) : Full X ι κ' α :=
  ⟨f.x, fun k => f.uc (e k), fun i k => f.wu i (e k), fun k => f.bu (e k), fun k => f.lc (e k), fun i k => f.wl i (e k),
    fun k => f.bl (e k), fun k => f.h (e k), fun k => f.g (e k)⟩

/-- Models `DecomonDot.call` for two inputs and `axes = (-1, -1)`, decomon_merge_layers.py:572-633: after
`permute_dimensions` and `broadcast` both inputs have entries indexed by (contracted axis, rest 0, rest 1); the products are summed
over the contracted axis.  `e0 (n, a)`, `e1 (n, b)` locate the entries in the original inputs. -/
def dotLayerT (D : PertDomain X ι α) (m : Mode) (e0 : n × o0 → κ0) (e1 : n × o1 → κ1) (f0 : Full X ι κ0 α)
    (f1 : Full X ι κ1 α) : Full X ι (o0 × o1) α :=
  let b0 : Full X ι ((o0 × o1) × n) α := f0.reindex fun q => e0 (q.2, q.1.1)
  let b1 : Full X ι ((o0 × o1) × n) α := f1.reindex fun q => e1 (q.2, q.1.2)
  sumT D m (fun q => q) (multiplyT D m b0 b1)

end Dot

/-! ### Max pooling, fast branch -/

section Pool
variable {X ι κ o α : Type*} [Field α] [LinearOrder α]

/-- `K.max_pool`: `win k` is the (non-empty) set of input entries in the window of output entry `k`; `padding="same"` pads with
`-inf`, that is, restricts the window. -/
def maxPool (win : o → Finset κ) (hw : ∀ k, (win k).Nonempty) (t : κ → α) (k : o) : α := (win k).sup' (hw k) t

/-- Models `DecomonMaxPooling2D._pooling_function_fast`, maxpooling.py:158-185 (`dc_decomp=False`; otherwise it raises).
`0 * u_c_out` is zero. -/
def maxPoolFastT (D : PertDomain X ι α) (m : Mode) (win : o → Finset κ) (hw : ∀ k, (win k).Nonempty)
    (f : Full X ι κ α) : Full X ι o α :=
  let f := f.tighten D m true true
  let lcOut := maxPool win hw f.lc
  let ucOut := maxPool win hw f.uc
  { x := f.x
    uc := ucOut
    lc := lcOut
    wu := fun _ k => if getAffine m then 0 * ucOut k else 0
    bu := fun k => if getAffine m then ucOut k else 0
    wl := fun _ k => if getAffine m then 0 * ucOut k else 0
    bl := fun k => if getAffine m then lcOut k else 0
    h := fun _ => 0
    g := fun _ => 0 }

end Pool

end Decomon
