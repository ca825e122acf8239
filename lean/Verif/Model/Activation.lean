import Verif.Model.Expr
import Verif.Model.Elementary
import Verif.Model.Transform
/-!
# Model of the activation functions (app/tenncor/src/utils/futils.ipp)

`sigmoid` and `tanh` are modelled as constructions of nodes (Verif.Model.Expr: elements are real numbers),
`softmax`, whose denominator mixes all elements, on tensors.
-/
namespace Verif
namespace Activation
open Expr
open scoped Classical

/-- `sigmoid`, futils.ipp:10-14: `(T)1 / ((T)1 + exp(-x))`. -/
noncomputable def sigmoid (env : Expr.Env) (x : Nat) : M :=
  andThen (neg env x) fun n => andThen (unop env .exp n) fun e => andThen (addL env 1 e) fun s => divL env 1 s

/-- `tanh`, futils.ipp:16-21: `etx = exp((T) 2 * x); (etx - (T) 1) / (etx + (T) 1)`. -/
noncomputable def tanh (env : Expr.Env) (x : Nat) : M :=
  andThen (mulL env 2 x) fun d => andThen (unop env .exp d) fun e => andThen (subR env e 1) fun n =>
    andThen (addR env e 1) fun m => div env n m

/-- Evaluating `softmax`, futils.ipp:23-28: `e = exp(x); e / reduce_sum(e)`.  The three nodes are evaluated
for the first time (no earlier tensor); `reduce_sum` without an axis is `compress` with `+`,
transform.ipp:280-293, 322-329.  (For a constant `x` the node `exp(x)` is computed at construction with the same
function, elementary.ipp:735-745, and a one-element constant numerator is read off, 330-334: same values.) -/
noncomputable def softmax (e : Verif.Env ℝ) (t : Tensor ℝ) : Outcome (Tensor ℝ) :=
  Op.forwardPass e Elementary.elementaryShaper (Elementary.unaryElem Real.exp) none [some t] >>= fun ex =>
  Op.forwardPass e Transform.compressAllShaper (Transform.compressAllKernel (· + ·)) none [some ex] >>= fun s =>
  Op.forwardPass e Elementary.elementaryShaper (Elementary.binaryElem (· / ·)) none [some ex, some s]

end Activation
end Verif
