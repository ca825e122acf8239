import Verif.Model.Backprop
import Verif.Model.Leaf
/-!
# Model of a training step of `gd_net` on tensors
(app/rocnnet/src/models/gd_net.cpp, app/tenncor/src/utils/gd_utils.cpp, src/graph/leaf/variable.ipp, placeholder.ipp)

The state is the tensors of the leaves.  While the updaters run, the graph of the error node is frozen, so every step
node has the value it had for the old leaves; C50 proves this about the reactive graph, and here the step is evaluated
for the old leaves directly.
-/
namespace Verif
namespace Backprop
open scoped Classical

/-- What `assign_sub` is given, variable.ipp:146-192: a constant's data is copied, any other node is evaluated. -/
noncomputable def stepArg (env : Env ℝ) (on : Bool) (ρ : Leaf → Tensor ℝ) : Term → Outcome (Verif.Leaf.Arg ℝ)
  | .const c => .ok (.const [c])
  | d => eval env on ρ d >>= fun t => .ok (.node (some t))

/-- Running the updater of `vgb_updater::process_update`, gd_utils.cpp:81-86, for the gradient node `d`; the default
`intermediate_process` returns it.  `ρ` is for the step, `t` is the variable's tensor. -/
noncomputable def vgbUpdate (env : Env ℝ) (on : Bool) (lr : ℝ) (ρ : Leaf → Tensor ℝ) (d : Term) (t : Tensor ℝ) : Outcome (Tensor ℝ) :=
  stepArg env on ρ (mulR d lr) >>= fun a => Verif.Leaf.assignSub env ⟨t, true, none⟩ a >>= fun l => .ok l.data

/-- A tensor replaced. -/
def put (ρ : Leaf → Tensor ℝ) (l : Leaf) (t : Tensor ℝ) : Leaf → Tensor ℝ := fun k => if k = l then t else ρ k

/-- The updaters one after the other, gd_utils.cpp:20-40 and gd_net.cpp:83-86; `ρ₀` are the leaves at the start. -/
noncomputable def updateAll (env : Env ℝ) (on : Bool) (lr : ℝ) (e : Term) (ρ₀ : Leaf → Tensor ℝ) :
    List Nat → (Leaf → Tensor ℝ) → Outcome (Leaf → Tensor ℝ)
  | [], ρ => .ok ρ
  | v :: vs, ρ => derive v e >>= fun d => vgbUpdate env on lr ρ₀ d (ρ ⟨true, v⟩) >>= fun t =>
      updateAll env on lr e ρ₀ vs (put ρ ⟨true, v⟩ t)

/-- `*placeholder = vector`, gd_net.cpp:80-81. -/
noncomputable def feedLeaf (env : Env ℝ) (ρ : Leaf → Tensor ℝ) (x : Nat) (data : List ℝ) : Outcome (Leaf → Tensor ℝ) :=
  Verif.Leaf.assignPlaceholder env ⟨ρ ⟨false, x⟩, true, none⟩ data >>= fun l => .ok (put ρ ⟨false, x⟩ l.data)

/-- `gd_net::train`, gd_net.cpp:78-88, for the error node `e` over the placeholders `x` and `y`; `vs` are the variables
in the order of the leaf set. -/
noncomputable def train (env : Env ℝ) (on : Bool) (lr : ℝ) (e : Term) (x y : Nat) (vs : List Nat) (ρ : Leaf → Tensor ℝ)
    (s : List ℝ × List ℝ) : Outcome (Leaf → Tensor ℝ) :=
  feedLeaf env ρ x s.1 >>= fun ρ => feedLeaf env ρ y s.2 >>= fun ρ => updateAll env on lr e ρ vs ρ

/-- Calls of `train` one after the other. -/
noncomputable def trainMany (env : Env ℝ) (on : Bool) (lr : ℝ) (e : Term) (x y : Nat) (vs : List Nat) :
    List (List ℝ × List ℝ) → (Leaf → Tensor ℝ) → Outcome (Leaf → Tensor ℝ)
  | [], ρ => .ok ρ
  | s :: ss, ρ => train env on lr e x y vs ρ s >>= fun ρ => trainMany env on lr e x y vs ss ρ

end Backprop
end Verif
