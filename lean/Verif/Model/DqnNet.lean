import Verif.Model.Rbm
import Verif.Model.Dqn
/-!
# Model of what a deep-Q agent computes and how its weights move
(app/rocnnet/src/models/dq_net.cpp, variable_setup 268-325 and train 102-162)

Terms are those of Verif.Model.Backprop; the state is the tensors of the leaves, as in Verif.Model.GdStep.  While the
source updates run the graph of the error is frozen (dq_net.cpp:146-152), so their steps are evaluated for the leaves at
the start (C50); the target updates see the new source variables.
-/
namespace Verif
namespace Backprop
open scoped Classical

/-- `source_qnet_`, `target_qnet_` and the placeholders, dq_net.cpp:270-275. -/
structure QNet where
  src : List NetLayer
  tgt : List NetLayer
  x : Nat
  next : Nat
  nmask : Nat
  reward : Nat
  omask : Nat

/-- `future_reward_`, dq_net.cpp:286-293; `γ` is the discount rate. -/
noncomputable def qFuture (N : QNet) (γ : ℝ) : Outcome Term :=
  propUp N.tgt (.leaf ⟨false, N.next⟩) >>= fun o =>
    .ok (add (.leaf ⟨false, N.reward⟩) (mulL γ (mul (.max0 (unop .ident o)) (.leaf ⟨false, N.nmask⟩))))

/-- `prediction_error_`, dq_net.cpp:282-300. -/
noncomputable def qError (N : QNet) (γ : ℝ) : Outcome Term :=
  propUp N.src (.leaf ⟨false, N.x⟩) >>= fun o => qFuture N γ >>= fun f =>
    reduceMean (pow (sub (.sum0 (mul (unop .ident o) (.leaf ⟨false, N.omask⟩))) f) 2)

/-- The update of one source variable, dq_net.cpp:304-309 and gd_utils.cpp:81-86. -/
noncomputable def qUpdate (env : Env ℝ) (on : Bool) (lr : ℝ) (e : Term) (ρ₀ : Leaf → Tensor ℝ) (v : Nat) (t : Tensor ℝ) : Outcome (Tensor ℝ) :=
  derive v e >>= fun d => clipNorm 5 d >>= fun d => vgbUpdate env on lr ρ₀ d t

/-- `source_updates_` one after the other, dq_net.cpp:148-151; the variables below `next_output_` are ignored (303). -/
noncomputable def qSource (env : Env ℝ) (on : Bool) (lr : ℝ) (e : Term) (ρ₀ : Leaf → Tensor ℝ) :
    List Nat → (Leaf → Tensor ℝ) → Outcome (Leaf → Tensor ℝ)
  | [], ρ => .ok ρ
  | v :: vs, ρ => qUpdate env on lr e ρ₀ v (ρ ⟨true, v⟩) >>= fun t => qSource env on lr e ρ₀ vs (put ρ ⟨true, v⟩ t)

/-- `target_updates_` one after the other, dq_net.cpp:153-157 with 317-324: `assign_sub(rate * (target - source))`. -/
noncomputable def qTarget (env : Env ℝ) (on : Bool) (α : ℝ) : List (Nat × Nat) → (Leaf → Tensor ℝ) → Outcome (Leaf → Tensor ℝ)
  | [], ρ => .ok ρ
  | (t, s) :: l, ρ => rbmUpdate env on α ρ (sub (.leaf ⟨true, t⟩) (.leaf ⟨true, s⟩)) (ρ ⟨true, t⟩) >>= fun x =>
      qTarget env on α l (put ρ ⟨true, t⟩ x)

/-- `get_variables` of `mlp` and `fc_layer`, mlp.cpp:87-96, fc_layer.cpp:84-93. -/
def qVars (ls : List NetLayer) : List Nat := ls.flatMap fun l => [l.w, l.bias]

/-- The pairs of dq_net.cpp:312-324, with the assertion. -/
def qPairs (N : QNet) : Outcome (List (Nat × Nat)) :=
  Outcome.assert ((qVars N.src).length == (qVars N.tgt).length) >>= fun _ => .ok ((qVars N.tgt).zip (qVars N.src))

/-- Entering a batch, dq_net.cpp:139-144. -/
noncomputable def qFeed (env : Env ℝ) (N : QNet) (b : Dqn.Batch) (ρ : Leaf → Tensor ℝ) : Outcome (Leaf → Tensor ℝ) :=
  feedLeaf env ρ N.x b.states >>= fun ρ => feedLeaf env ρ N.omask b.actionMask >>= fun ρ =>
  feedLeaf env ρ N.next b.newStates >>= fun ρ => feedLeaf env ρ N.nmask b.newStatesMask >>= fun ρ => feedLeaf env ρ N.reward b.rewards

/-- `train` on a batch, dq_net.cpp:139-157; `vs` are the trained variables in the order of the leaf set, `lr` the
learning rate and `α` the target update rate. -/
noncomputable def qTrain (env : Env ℝ) (on : Bool) (lr γ α : ℝ) (N : QNet) (vs : List Nat) (b : Dqn.Batch) (ρ : Leaf → Tensor ℝ) :
    Outcome (Leaf → Tensor ℝ) :=
  qError N γ >>= fun e => qPairs N >>= fun ps => qFeed env N b ρ >>= fun ρ =>
    qSource env on lr e ρ vs ρ >>= fun ρ => qTarget env on α ps ρ

/-- Batches one after the other. -/
noncomputable def qTrainMany (env : Env ℝ) (on : Bool) (lr γ α : ℝ) (N : QNet) (vs : List Nat) :
    List Dqn.Batch → (Leaf → Tensor ℝ) → Outcome (Leaf → Tensor ℝ)
  | [], ρ => .ok ρ
  | b :: bs, ρ => qTrain env on lr γ α N vs b ρ >>= fun ρ => qTrainMany env on lr γ α N vs bs ρ

end Backprop
end Verif
