import Verif.Model.Gibbs
/-!
# Model of the deep belief network
(app/rocnnet/src/models/db_net.cpp)

As in Verif.Model.Rbm, a sampled node under `as_constant` is a leaf that is no variable.
-/
namespace Verif
namespace Backprop
open Sampling
open scoped Classical

/-- A `db_net`, db_net.cpp:12-33: the machines with their number of hidden units, and the two variables and the number of
units of the last layer. -/
structure DbnVars where
  layers : List (RbmVars × Nat)
  w : Nat
  bias : Nat
  out : Nat

/-- The loop of `prop_up`, db_net.cpp:76-79 (and of `pretraining_functions`, 90-94). -/
noncomputable def stackProp : List (RbmVars × Nat) → Term → Outcome Term
  | [], x => .ok x
  | r :: rs, x => rbmUp r.1 x >>= stackProp rs

/-- `softmax`, futils.ipp:24-28: the sum is over all elements. -/
noncomputable def softmax (x : Term) : Outcome Term := div (unop .exp x) (.sumAll (unop .exp x))

/-- `prop_up`, db_net.cpp:70-81, for `n_input_ = n` and an input node of shape `s`; the last layer is
`fc_layer::operator()`, fc_layer.cpp:68-82, for one input. -/
noncomputable def dbnUp (d : DbnVars) (n : Nat) (s : Shape) (x : Term) : Outcome Term :=
  Outcome.assert (s.isCompatibleWith [n, 0]) >>= fun _ => stackProp d.layers x >>= fun h =>
    softmax (addAxial (matmul h (.leaf ⟨true, d.w⟩) false false) (.leaf ⟨true, d.bias⟩))

/-- The cost of `build_finetune_functions`, db_net.cpp:105; `o` is the output of `prop_up`. -/
noncomputable def tuneCost (o : Term) : Outcome Term := reduceMean (unop .log o) >>= fun e => .ok (neg e)

/-- The error that is returned, db_net.cpp:109-110. -/
noncomputable def tuneError (o y : Term) : Outcome Term := reduceMean (pow (sub o y) 2)

/-- `get_variables`, db_net.cpp:131-142, with rbm.cpp:178-185 and fc_layer.cpp:84-93. -/
def DbnVars.variables (d : DbnVars) : List Nat := (d.layers.flatMap fun r => [r.1.w, r.1.hb, r.1.vb]) ++ [d.w, d.bias]

/-- `build_finetune_functions` and one call of the updater it returns, db_net.cpp:99-129, for the placeholders `x` and
`y` of shapes `s` and any. The expected output is used for the error only. -/
noncomputable def dbnTune (env : Env ℝ) (on : Bool) (lr : ℝ) (d : DbnVars) (n : Nat) (s : Shape) (x y : Nat) (ρ : Leaf → Tensor ℝ) :
    Outcome (Leaf → Tensor ℝ) :=
  dbnUp d n s (.leaf ⟨false, x⟩) >>= fun o => tuneCost o >>= fun e => tuneError o (.leaf ⟨false, y⟩) >>= fun _ =>
    rbmUpdates env on lr e ρ d.variables ρ

/-- The chain of the trainer of one machine, as `gibbsChain`, for any input node. -/
noncomputable def gibbsChainOf (env : Env ℝ) (on : Bool) (r : RbmVars) (x : Term) (c y k : Nat) (D : Nat → Draw) (ρ : Leaf → Tensor ℝ) :
    Outcome (Leaf → Tensor ℝ) :=
  rbmUp r x >>= fun e => eval env on ρ e >>= fun q => binomSample env 1 (D 0) q >>= fun h =>
    gibbsRounds env on r c y k (fun i => D (i + 1)) (put ρ ⟨false, y⟩ h)

/-- One call of the trainer that `pretraining_functions` returns for the machine `r` above the machines `below`,
db_net.cpp:84-97 with rbm.cpp:106-176. -/
noncomputable def dbnPretrain (env : Env ℝ) (on : Bool) (lr : ℝ) (below : List (RbmVars × Nat)) (r : RbmVars) (x c y k : Nat) (D : Nat → Draw)
    (ρ : Leaf → Tensor ℝ) : Outcome (Leaf → Tensor ℝ) :=
  stackProp below (.leaf ⟨false, x⟩) >>= fun s => gibbsChainOf env on r s c y k D ρ >>= fun ρ' =>
    rbmCostOf r s (lastVisible c k) >>= rbmApply env on lr r ρ'

end Backprop
end Verif
