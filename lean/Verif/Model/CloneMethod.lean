import Verif.Model.CrownGraph
import Verif.Model.EndToEnd
import Verif.Model.Graph

/-!
`clone` on a graph of Keras layers, for any of its seven methods, and what the functions of wrapper.py read in its output.
-/

namespace Decomon

section
variable {X : Type} {n : ℕ}

/-- Models `convert`, convert.py:117-167, once the method has been read: the forward conversion (for every method but crown), then for the crown
methods the backward one with the tensors of the first, otherwise `Convert2Mode`. -/
noncomputable def KGraph.runPlan (D : PertDomain X (Idx [n]) ℝ) (stack : (Idx [n] → ℝ) → (Idx [n] → ℝ) → X) (P : Plan) (eps : ℝ) (slope : Slope)
    (inp : Full X (Idx [n]) (Idx [n]) ℝ) (G : KGraph n) (top : ℤ) (fuel : ℕ) (order : List ℕ) (nameOf : ℕ → String) (out : ℕ) :
    Except PyErr (List (BTen X)) :=
  if P.backward then G.convertBackward D stack P.mode P.final eps slope P.forward inp top fuel order nameOf out
  else (G.convert D P.mode P.final eps slope inp top fuel order nameOf out).map (List.map Ten.toB)

/-- What a function of wrapper.py reads in the output of `clone(model, method=..., final_ibp=..., final_affine=...)` (convert.py:170-260) on one
row, a box; the flags `ibp` and `affine` of the `DecomonModel` are `final_ibp` and `final_affine` (convert.py:255-256). -/
noncomputable def KGraph.cloneOnBox (G : KGraph n) (method : String) (finalIbp finalAffine : Option Bool) (eps : ℝ) (slope : Slope) (top : ℤ)
    (fuel : ℕ) (order : List ℕ) (nameOf : ℕ → String) (out : ℕ) (b : BoxOf (Fin n) ℝ) :
    Except PyErr (Full (BoxOf (Idx [n]) ℝ) (Fin n) (Fin (G.sh out).prod) ℝ) :=
  let z : BoxOf (Idx [n]) ℝ := (fun i => b.1 ((oneAxis n).symm i), fun i => b.2 ((oneAxis n).symm i))
  (clonePlan method finalIbp finalAffine).bind fun P =>
  (G.runPlan boxDomain Prod.mk P eps slope (inputTensorsBox P.mode z.1 z.2) top fuel order nameOf out).bind fun l =>
  (l.mapM (BTen.toTen n)).bind (wrapperOutput P.final z (G.sh out))

/-- The same for `perturbation_domain=BallDomain(eps, p)` and a row of `get_range_noise`, the centre of a ball. -/
noncomputable def KGraph.cloneOnBall [Nonempty (Idx [n])] (G : KGraph n) (method : String) (finalIbp finalAffine : Option Bool) (leps : ℝ)
    (slope : Slope) (eps : ℝ) (q : PVal) (stack : (Idx [n] → ℝ) → (Idx [n] → ℝ) → Idx [n] → ℝ) (top : ℤ) (fuel : ℕ) (order : List ℕ)
    (nameOf : ℕ → String) (out : ℕ) (x : Fin n → ℝ) : Except PyErr (Full (Idx [n] → ℝ) (Fin n) (Fin (G.sh out).prod) ℝ) :=
  let z : Idx [n] → ℝ := fun i => x ((oneAxis n).symm i)
  (clonePlan method finalIbp finalAffine).bind fun P =>
  (G.runPlan (ballDomain eps q) stack P leps slope (inputTensorsBall P.mode eps q z) top fuel order nameOf out).bind fun l =>
  (l.mapM (BTen.toTen n)).bind (wrapperOutput P.final z (G.sh out))

end

end Decomon
