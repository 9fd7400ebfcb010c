import Verif.Model.Pipeline
import Verif.Model.Wrapper
import Verif.Model.Backward
import Mathlib.Logic.Equiv.Fin.Basic

/-!
What the functions of wrapper.py read in the list of tensors returned by a converted model: `predict_on_single_batch_np`, the unpacking of the
output by mode, the reshape of outputs with several axes.
-/

namespace Decomon

/-- The entries of a tensor with one axis. -/
def oneAxis (n : ℕ) : Fin n ≃ Idx [n] where
  toFun i := fun j => match j with | ⟨0, _⟩ => i
  invFun k := k 0
  left_inv _ := rfl
  right_inv k := by
    funext j
    match j with
    | ⟨0, _⟩ => rfl

instance (n : ℕ) : Nonempty (Idx [n + 1]) := ⟨oneAxis (n + 1) 0⟩

/-- `np.reshape(t, (-1, np.prod(shape)))`: row-major order (the batch axis is left out). -/
def ravel : (s : List ℕ) → Idx s ≃ Fin s.prod
  | [] => { toFun := fun _ => ⟨0, Nat.one_pos⟩, invFun := fun _ i => i.elim0, left_inv := fun _ => funext fun i => i.elim0,
            right_inv := fun k => Fin.ext (Nat.lt_one_iff.1 k.2).symm }
  | a :: s => (Fin.consEquiv fun i : Fin (s.length + 1) => Fin ((a :: s).get i)).symm.trans
      ((Equiv.prodCongr (Equiv.refl (Fin a)) (ravel s)).trans (finProdFinEquiv.trans (finCongr (by simp))))

section
variable {X : Type} {n : ℕ}

/-- Models `_, u_i, w_u_f, b_u_f, l_i, w_l_f, b_l_f = output[:7]`, `_, w_u_f, b_u_f, w_l_f, b_l_f = output[:5]` and
`u_i = output[0]; l_i = output[1]`, wrapper.py:540-568 (also 232-239, 707-733): the flags `ibp` and `affine` of the model choose the case. -/
def unpackOutput {ι : Type} (m : Mode) (output : List (Ten X ι)) : Except PyErr (Nine (Ten X ι)) :=
  match m, output with
  | .hybrid, x :: uc :: wu :: bu :: lc :: wl :: bl :: _ => .ok ⟨x, uc, wu, bu, lc, wl, bl, .empty, .empty⟩
  | .affine, x :: wu :: bu :: wl :: bl :: _ => .ok ⟨x, .empty, wu, bu, .empty, wl, bl, .empty, .empty⟩
  | .ibp, uc :: lc :: _ => .ok ⟨.empty, uc, .empty, .empty, lc, .empty, .empty, .empty, .empty⟩
  | .ibp, _ => .error .indexError
  | _, _ => .error .valueError

/-- The tensors of a model with `n` inputs and an output of shape `s`, with the entries of the output in row-major order (wrapper.py:541-554,
199-206, 714-727; for one axis nothing changes). -/
def Full.flat {s : List ℕ} (f : Full X (Idx [n]) (Idx s) ℝ) : Full X (Fin n) (Fin s.prod) ℝ where
  x := f.x
  uc := fun k => f.uc ((ravel s).symm k)
  wu := fun i k => f.wu (oneAxis n i) ((ravel s).symm k)
  bu := fun k => f.bu ((ravel s).symm k)
  lc := fun k => f.lc ((ravel s).symm k)
  wl := fun i k => f.wl (oneAxis n i) ((ravel s).symm k)
  bl := fun k => f.bl ((ravel s).symm k)
  h := fun k => f.h ((ravel s).symm k)
  g := fun k => f.g ((ravel s).symm k)

/-- What a function of wrapper.py reads in the output of the model: the tensors of the mode, flattened. -/
def wrapperOutput (m : Mode) (x0 : X) (s : List ℕ) (output : List (Ten X (Idx [n]))) : Except PyErr (Full X (Fin n) (Fin s.prod) ℝ) :=
  (unpackOutput m output).bind fun t => (readNine x0 s t).map Full.flat

/-- Models `decomon_model.predict_on_single_batch_np(z)`, models/models.py:98-124, on one row `z` (a box), for the model
`clone(model, method="forward-...")`, and the unpacking by the caller.  `m` is the mode of the method and `mTo` the final mode. -/
noncomputable def KGraph.onBox (G : KGraph n) (m mTo : Mode) (eps : ℝ) (slope : Slope) (top : ℤ) (fuel : ℕ) (order : List ℕ)
    (nameOf : ℕ → String) (out : ℕ) (b : BoxOf (Fin n) ℝ) :
    Except PyErr (Full (BoxOf (Idx [n]) ℝ) (Fin n) (Fin (G.sh out).prod) ℝ) :=
  let z : BoxOf (Idx [n]) ℝ := (fun i => b.1 ((oneAxis n).symm i), fun i => b.2 ((oneAxis n).symm i))
  (G.convert boxDomain m mTo eps slope (inputTensorsBox m z.1 z.2) top fuel order nameOf out).bind (wrapperOutput mTo z (G.sh out))

/-- The same for a row `z` of `get_range_noise` (the centre of a ball), wrapper.py:702-727. -/
noncomputable def KGraph.onBall [Nonempty (Idx [n])] (G : KGraph n) (m mTo : Mode) (leps : ℝ) (slope : Slope) (eps : ℝ) (q : PVal) (top : ℤ)
    (fuel : ℕ) (order : List ℕ) (nameOf : ℕ → String) (out : ℕ) (x : Fin n → ℝ) :
    Except PyErr (Full (Idx [n] → ℝ) (Fin n) (Fin (G.sh out).prod) ℝ) :=
  let z : Idx [n] → ℝ := fun i => x ((oneAxis n).symm i)
  (G.convert (ballDomain eps q) m mTo leps slope (inputTensorsBall m eps q z) top fuel order nameOf out).bind (wrapperOutput mTo z (G.sh out))

end

/-! ### `get_adv_box` on outputs with several axes -/

/-- Shapes in `get_ibp_score`, wrapper.py:167-180, for a batch of `N` samples and outputs of shape `s`: `u_c[:, :, None] - l_c[:, None]` has the
shape `(N, a, a, ...)`, the mask the shape `(N, prod, prod)`, and `upper -= ...` needs a result of the shape of `upper`. -/
def ibpScoreErr (N : ℕ) (s : List ℕ) : Option PyErr :=
  match s with
  | [] => some .indexError
  | a :: t =>
    if broadcastRev (N :: a :: a :: t).reverse [(a :: t).prod, (a :: t).prod, N] = .ok (N :: a :: a :: t).reverse then none
    else some .valueError

section
variable {n : ℕ} {ι κ X α : Type*} [Fintype ι] [Fintype κ] [Nonempty κ] [Field α] [LinearOrder α]

/-- `advBase` (wrapper.py:145-255) for outputs of shape `s`: `get_ibp_score` does not flatten the constant bounds, `get_affine_score` does. -/
def advBaseOf (s : List ℕ) (net : BoxOf ι α → Full X ι κ α) (m : Mode) (rows : List (AdvSample ι κ α)) : Except PyErr (List α) :=
  if badBoxes (rows.map AdvSample.box) then .error .userWarning
  else
    match if getIbp m then ibpScoreErr rows.length s else none with
    | some e => .error e
    | none => advBase net m rows

/-- `getAdvBox` (wrapper.py:41-260) for outputs of shape `s`. -/
def getAdvBoxOf (s : List ℕ) (net : BoxOf (Fin (n + 1)) α → Full X (Fin (n + 1)) κ α) (m : Mode) (batch nSub : ℕ)
    (rows : List (AdvSample (Fin (n + 1)) κ α)) : Except PyErr (List α) :=
  if badBoxes (rows.map AdvSample.box) then .error .userWarning
  else
    let sub := if 1 < nSub then rows.flatMap (fun r => (refineBoxes true nSub r.box).map fun b => ⟨b, r.src, r.tgt⟩) else rows
    let nSplit := (subBoxes nSub (rows.map AdvSample.box)).2
    match (if 0 < batch then collect ((batches batch sub).map (advBaseOf s net m)) else collect [advBaseOf s net m sub]) with
    | .error e => .error e
    | .ok rs => if 1 < nSplit then .ok ((regroup nSplit rs.flatten).map listMax) else .ok rs.flatten

end

end Decomon
