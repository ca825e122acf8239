import Verif.Model.GdStep
/-!
# Model of the restricted Boltzmann machine
(app/rocnnet/src/models/rbm.cpp)

The nodes are those of Verif.Model.Backprop.  A sampled node under `as_constant` (const_immutable.ipp:24-40: no leaves,
no gradient, no transfer functions) is a leaf that is no variable; so is what `train` calls `chain_end`.
-/
namespace Verif
namespace Backprop
open scoped Classical

/-- The variables of an `rbm`, rbm.cpp:10-37: weight <n_hidden, n_input>, hidden bias, visible bias. -/
structure RbmVars where
  w : Nat
  hb : Nat
  vb : Nat

/-- `prop_up`, rbm.cpp:71-80. -/
noncomputable def rbmUp (r : RbmVars) (x : Term) : Outcome Term :=
  sigmoid (addAxial (matmul x (.leaf ⟨true, r.w⟩) false false) (.leaf ⟨true, r.hb⟩))

/-- `prop_down`, rbm.cpp:82-90. -/
noncomputable def rbmDown (r : RbmVars) (h : Term) : Outcome Term :=
  sigmoid (addAxial (matmul h (.leaf ⟨true, r.w⟩) false true) (.leaf ⟨true, r.vb⟩))

/-- `free_energy`, rbm.cpp:236-244. -/
noncomputable def rbmFreeEnergy (r : RbmVars) (s : Term) : Term :=
  neg (add
    (.sum0 (unop .log (addL 1 (unop .exp (addAxial (matmul s (.leaf ⟨true, r.w⟩) false false) (.leaf ⟨true, r.hb⟩))))))
    (matmul s (.leaf ⟨true, r.vb⟩) false true))

/-- `reduce_mean(a)`, transform.ipp:330-352. -/
noncomputable def reduceMean (a : Term) : Outcome Term := div (.sumAll a) (.nelems a)

/-- The cost of `train`, rbm.cpp:141-142, for the input and the end of the chain. -/
noncomputable def rbmCost (r : RbmVars) (x c : Term) : Outcome Term :=
  reduceMean (rbmFreeEnergy r x) >>= fun a => reduceMean (rbmFreeEnergy r c) >>= fun b => .ok (sub a b)

/-- `get_reconstruction_cost`, rbm.cpp:260-265. -/
noncomputable def rbmRecon (x v : Term) : Outcome Term :=
  reduceMean (.sum0 (add (mul x (unop .log v)) (mul (subL 1 x) (unop .log (subL 1 v)))))

/-- `get_pseudo_likelihood_cost`, rbm.cpp:246-258; `one` is the node of `const_axis(0, 0, 1, shape)`. -/
noncomputable def rbmPseudo (r : RbmVars) (n : Nat) (one x : Term) : Outcome Term :=
  sigmoid (sub (rbmFreeEnergy r (sub one (unop .round x))) (rbmFreeEnergy r (unop .round x))) >>= fun p =>
  reduceMean (mulL n (unop .log p))

/-- One updater, rbm.cpp:150-152: `assign_sub(learning_rate * d)`; `ρ` is for the step, `t` is the variable's tensor. -/
noncomputable def rbmUpdate (env : Env ℝ) (on : Bool) (lr : ℝ) (ρ : Leaf → Tensor ℝ) (d : Term) (t : Tensor ℝ) : Outcome (Tensor ℝ) :=
  stepArg env on ρ (mulL lr d) >>= fun a => Verif.Leaf.assignSub env ⟨t, true, none⟩ a >>= fun l => .ok l.data

/-- The updates of `train` one after the other, rbm.cpp:145-152, 167-175; `ρ₀` are the leaves at the start. -/
noncomputable def rbmUpdates (env : Env ℝ) (on : Bool) (lr : ℝ) (e : Term) (ρ₀ : Leaf → Tensor ℝ) :
    List Nat → (Leaf → Tensor ℝ) → Outcome (Leaf → Tensor ℝ)
  | [], ρ => .ok ρ
  | v :: vs, ρ => derive v e >>= fun d => rbmUpdate env on lr ρ₀ d (ρ ⟨true, v⟩) >>= fun t =>
      rbmUpdates env on lr e ρ₀ vs (put ρ ⟨true, v⟩ t)

/-- One call of the trainer `train` returns, rbm.cpp:167-175, without a persistent chain; `x` is the input, `c` the end
of the chain. -/
noncomputable def rbmTrain (env : Env ℝ) (on : Bool) (lr : ℝ) (r : RbmVars) (x c : Nat) (ρ : Leaf → Tensor ℝ) : Outcome (Leaf → Tensor ℝ) :=
  rbmCost r (.leaf ⟨false, x⟩) (.leaf ⟨false, c⟩) >>= fun e => rbmUpdates env on lr e ρ [r.w, r.hb, r.vb] ρ

end Backprop
end Verif
