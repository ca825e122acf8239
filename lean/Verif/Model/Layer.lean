import Verif.Model.Elementary
import Verif.Model.Matmul
import Mathlib.Algebra.Ring.Defs
import Mathlib.Analysis.SpecialFunctions.Exp
/-!
# Model of the forward pass of fully connected layers and multi-layer perceptrons
(app/rocnnet/src/layers/fc_layer.cpp, src/compounds/mlp.cpp)

The nodes a layer builds are evaluated for the first time, on tensors that hold data.  A node is identified
with its tensor.  `on` is the `ENABLE_STRASSEN` build flag.
-/
namespace Verif
namespace Layer
variable {T : Type} [Ring T]

/-- `add_axial_b(matmul(input, weight), bias, 1)`, fc_layer.cpp:71-73, 76-78; add_axial_b is
elementary.ipp:1881-1896, matmul matmul.ipp:244-356. -/
def fcTerm (e : Env T) (on : Bool) (input weight bias : Tensor T) : Outcome (Tensor T) :=
  Op.forwardPass e Matmul.shaper (Matmul.kernel on e.junk) none [some input, some weight] >>= fun weighed =>
  Op.forwardPass e (Elementary.axialShaper 1 false) (Elementary.binaryAxial (· + ·) 1 false) none [some weighed, some bias]

/-- The loop over further inputs, fc_layer.cpp:74-79; `inputs[i]` past the end is undefined. -/
def fcLoop (e : Env T) (on : Bool) : List (Tensor T × Tensor T) → List (Tensor T) → Tensor T → Outcome (Tensor T)
  | [], _, result => .ok result
  | _ :: _, [], _ => .ub
  | wb :: wbs, x :: xs, result =>
    fcTerm e on x wb.1 wb.2 >>= fun t =>
    Op.forwardPass e Elementary.elementaryShaper (Elementary.binaryElem (· + ·)) none [some result, some t] >>= fun r =>
    fcLoop e on wbs xs r

/-- `fc_layer::operator()`, fc_layer.cpp:68-82; `wbs` is `weights_n_bias_`. -/
def fc (e : Env T) (on : Bool) (wbs : List (Tensor T × Tensor T)) (inputs : List (Tensor T)) : Outcome (Tensor T) :=
  match wbs, inputs with
  | wb :: wbs, x :: xs => fcTerm e on x wb.1 wb.2 >>= fun r => fcLoop e on wbs xs r
  | _, _ => .ub

/-- The loop of `mlp::prop_up`, mlp.cpp:77-82; each layer has one weight and bias (mlp.cpp:27). -/
def mlpLoop (e : Env T) (on : Bool) : List ((Tensor T × Tensor T) × (Tensor T → Outcome (Tensor T))) → Tensor T → Outcome (Tensor T)
  | [], output => .ok output
  | (wb, act) :: ls, output => fc e on [wb] [output] >>= fun hyp => act hyp >>= fun out => mlpLoop e on ls out

/-- `mlp::prop_up`, mlp.cpp:69-85. -/
def propUp (e : Env T) (on : Bool) (nInput : Nat) (ls : List ((Tensor T × Tensor T) × (Tensor T → Outcome (Tensor T))))
    (input : Tensor T) : Outcome (Tensor T) :=
  Outcome.assert (Shape.isCompatibleWith input.getShape [nInput, 0]) >>= fun _ => mlpLoop e on ls input

/-- A unary element-wise node, elementary.ipp:14-30, evaluated for the first time. -/
def un {T : Type} (e : Env T) (op : T → T) (t : Tensor T) : Outcome (Tensor T) :=
  Op.forwardPass e Elementary.elementaryShaper (Elementary.unaryElem op) none [some t]

/-- Evaluating `sigmoid`, futils.ipp:10-14, of a node that is not a constant. -/
noncomputable def sigmoid (e : Env ℝ) (t : Tensor ℝ) : Outcome (Tensor ℝ) :=
  un e (fun x => -x) t >>= fun a => un e Real.exp a >>= fun b => un e (fun x => 1 + x) b >>= fun c => un e (fun x => 1 / x) c

/-- Evaluating `tanh`, futils.ipp:16-21, of a node that is not a constant. -/
noncomputable def tanh (e : Env ℝ) (t : Tensor ℝ) : Outcome (Tensor ℝ) :=
  un e (fun x => 2 * x) t >>= fun a => un e Real.exp a >>= fun etx =>
  un e (fun x => x - 1) etx >>= fun b => un e (fun x => x + 1) etx >>= fun c =>
  Op.forwardPass e Elementary.elementaryShaper (Elementary.binaryElem (· / ·)) none [some b, some c]

end Layer
end Verif
