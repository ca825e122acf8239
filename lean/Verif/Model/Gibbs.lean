import Verif.Model.Rbm
import Verif.Model.Elementary
/-!
# Model of binomial sampling and of the Gibbs chain of a restricted Boltzmann machine
(app/tenncor/src/graph/operations/elementary.ipp, app/rocnnet/src/models/rbm.cpp)

Random numbers are a parameter: for one evaluation of a sampling node, the number drawn for each element, given the
number of trials and the probability.
-/
namespace Verif

/-- `std::binomial_distribution<int> dist(n, p); dist(gen)` for the element with the given index. -/
abbrev Draw := Nat → Nat → ℝ → Nat

namespace Sampling
open scoped Classical

/-- Kernel of `binomial_sample(n, p)` for a node, elementary.ipp:1241-1252; `n` is a whole number. -/
noncomputable def binomKernel (n : Nat) (draw : Draw) : TransferFunc ℝ
  | dest, src :: _, outs, _ =>
    Outcome.fill outs.nElems (fun i => Outcome.read src i >>= fun p =>
      if p ≥ 0 ∧ p ≤ 1 then .ok ((draw i n p : Nat) : ℝ) else .abort) dest
  | _, [], _, _ => .ub

/-- First evaluation of the node `binomial_sample(n, p)`, elementary.ipp:1240-1254. -/
noncomputable def binomSample (env : Env ℝ) (n : Nat) (draw : Draw) (p : Tensor ℝ) : Outcome (Tensor ℝ) :=
  Op.forwardPass env Elementary.elementaryShaper (binomKernel n draw) none [some p]

/-- Re-evaluation of the node, whose tensor is `t`. -/
noncomputable def binomResample (env : Env ℝ) (n : Nat) (draw : Draw) (t p : Tensor ℝ) : Outcome (Tensor ℝ) :=
  Op.forwardPass env Elementary.elementaryShaper (binomKernel n draw) (some t) [some p]

/-- `binomial_sample(n, p)` for a constant with the given data, elementary.ipp:1223-1234: `pvec` is constructed with
`(T) 0` elements, and then written to. -/
noncomputable def binomConst (n : Nat) (draw : Draw) (data : List ℝ) : Outcome (List ℝ) :=
  Outcome.fill data.length (fun i => Outcome.read data i >>= fun p => .ok ((draw i n p : Nat) : ℝ))
    (List.replicate 0 (data.length : ℝ))

/-- Kernel of `binomial_sample(n, p)` for two nodes, elementary.ipp:1313-1326; the number of trials of an element is
truncated to a whole number. -/
noncomputable def binomKernel2 (draw : Draw) : TransferFunc ℝ := fun dest srcs outs _ =>
  Outcome.fill outs.nElems (fun i =>
    Outcome.read srcs 0 >>= fun s0 => Outcome.read s0 i >>= fun n =>
      Outcome.read srcs 1 >>= fun s1 => Outcome.read s1 i >>= fun p =>
        if p ≥ 0 ∧ p ≤ 1 then .ok ((draw i ⌊n⌋₊ p : Nat) : ℝ) else .abort) dest

/-- First evaluation of the node, elementary.ipp:1312-1327: only `p` is an argument. -/
noncomputable def binomSample2 (env : Env ℝ) (draw : Draw) (_n p : Tensor ℝ) : Outcome (Tensor ℝ) :=
  Op.forwardPass env Elementary.elementaryShaper (binomKernel2 draw) none [some p]

end Sampling

namespace Backprop
open Sampling

/-- One round of the loop of `train`, rbm.cpp:124-136 (with `reconstruct_hidden`, 99-104): the visible units are sampled
given the hidden ones in leaf `y`, into leaf `c`, then the hidden ones given the visible ones. `final_visible_dist` and
its sample are found by name (operation_utils.ipp): they are the nodes `reconstruct_hidden` made. -/
noncomputable def gibbsRound (env : Env ℝ) (on : Bool) (r : RbmVars) (c y : Nat) (d1 d2 : Draw) (ρ : Leaf → Tensor ℝ) :
    Outcome (Leaf → Tensor ℝ) :=
  rbmDown r (.leaf ⟨false, y⟩) >>= fun e => eval env on ρ e >>= fun p => binomSample env 1 d1 p >>= fun v =>
    rbmUp r (.leaf ⟨false, c⟩) >>= fun e' => eval env on (put ρ ⟨false, c⟩ v) e' >>= fun q => binomSample env 1 d2 q >>= fun h =>
      .ok (put (put ρ ⟨false, c⟩ v) ⟨false, y⟩ h)

/-- The loop of `train`, rbm.cpp:124-136. -/
noncomputable def gibbsRounds (env : Env ℝ) (on : Bool) (r : RbmVars) (c y : Nat) : Nat → (Nat → Draw) → (Leaf → Tensor ℝ) →
    Outcome (Leaf → Tensor ℝ)
  | 0, _, ρ => .ok ρ
  | k + 1, D, ρ => gibbsRound env on r c y (D 0) (D 1) ρ >>= fun ρ' => gibbsRounds env on r c y k (fun i => D (i + 2)) ρ'

/-- The chain of `train` without a persistent state, rbm.cpp:113-137: the first hidden units are sampled given the input. -/
noncomputable def gibbsChain (env : Env ℝ) (on : Bool) (r : RbmVars) (x c y k : Nat) (D : Nat → Draw) (ρ : Leaf → Tensor ℝ) :
    Outcome (Leaf → Tensor ℝ) :=
  rbmUp r (.leaf ⟨false, x⟩) >>= fun e => eval env on ρ e >>= fun q => binomSample env 1 (D 0) q >>= fun h =>
    gibbsRounds env on r c y k (fun i => D (i + 1)) (put ρ ⟨false, y⟩ h)

/-- `final_visible_sample` after `k` rounds, rbm.cpp:123-137: a null pointer before the first (`binomial_sample` of a null
pointer is one, elementary.ipp:1223), then the visible units in leaf `c`. -/
def lastVisible (c : Nat) : Nat → Option Term
  | 0 => none
  | _ + 1 => some (.leaf ⟨false, c⟩)

/-- The cost of `train`, rbm.cpp:139-142: the operators pass null pointers on. -/
noncomputable def rbmCostOf (r : RbmVars) (x : Term) : Option Term → Outcome (Option Term)
  | none => .ok none
  | some v => rbmCost r x v >>= fun e => .ok (some e)

/-- `cost->derive` and the updates, rbm.cpp:145-152, 167-175: calling `derive` through a null pointer is undefined. -/
noncomputable def rbmApply (env : Env ℝ) (on : Bool) (lr : ℝ) (r : RbmVars) (ρ : Leaf → Tensor ℝ) : Option Term → Outcome (Leaf → Tensor ℝ)
  | none => .ub
  | some e => rbmUpdates env on lr e ρ [r.w, r.hb, r.vb] ρ

/-- The chain is sampled for the current input and variables, then one call of the trainer, rbm.cpp:106-176, with
`n_cont_div = k` and no persistent state. -/
noncomputable def rbmCd (env : Env ℝ) (on : Bool) (lr : ℝ) (r : RbmVars) (x c y k : Nat) (D : Nat → Draw) (ρ : Leaf → Tensor ℝ) :
    Outcome (Leaf → Tensor ℝ) :=
  gibbsChain env on r x c y k D ρ >>= fun ρ' => rbmCostOf r (.leaf ⟨false, x⟩) (lastVisible c k) >>= rbmApply env on lr r ρ'

/-- Training on one batch after the other, as rbm_demo.cpp:49-54 does with a persistent state: the
input placeholder is set, then the trainer called. -/
noncomputable def rbmTrainAll (env : Env ℝ) (on : Bool) (lr : ℝ) (r : RbmVars) (x c y k : Nat) :
    List (List ℝ × (Nat → Draw)) → (Leaf → Tensor ℝ) → Outcome (Leaf → Tensor ℝ)
  | [], ρ => .ok ρ
  | (data, D) :: rest, ρ => feedLeaf env ρ x data >>= fun ρ' => rbmCd env on lr r x c y k D ρ' >>= fun ρ'' =>
      rbmTrainAll env on lr r x c y k rest ρ''

/-- One call of the trainer with the persistent state in variable `s`, rbm.cpp:118-121, 124-152, 162, 167-175: the chain
starts from the persistent state, which is then set to the chain's last hidden units. -/
noncomputable def rbmPcd (env : Env ℝ) (on : Bool) (lr : ℝ) (r : RbmVars) (x c y s k : Nat) (D : Nat → Draw) (ρ : Leaf → Tensor ℝ) :
    Outcome (Leaf → Tensor ℝ) :=
  gibbsRounds env on r c y k D (put ρ ⟨false, y⟩ (ρ ⟨true, s⟩)) >>= fun ρ' =>
    rbmCostOf r (.leaf ⟨false, x⟩) (lastVisible c k) >>= rbmApply env on lr r ρ' >>= fun ρ'' =>
      Verif.Leaf.assign env ⟨ρ'' ⟨true, s⟩, true, none⟩ (.node (some (ρ'' ⟨false, y⟩))) >>= fun l => .ok (put ρ'' ⟨true, s⟩ l.data)

/-- Training on one batch after the other with a persistent state, rbm_demo.cpp:46-57. -/
noncomputable def rbmPcdAll (env : Env ℝ) (on : Bool) (lr : ℝ) (r : RbmVars) (x c y s k : Nat) :
    List (List ℝ × (Nat → Draw)) → (Leaf → Tensor ℝ) → Outcome (Leaf → Tensor ℝ)
  | [], ρ => .ok ρ
  | (data, D) :: rest, ρ => feedLeaf env ρ x data >>= fun ρ' => rbmPcd env on lr r x c y s k D ρ' >>= fun ρ'' =>
      rbmPcdAll env on lr r x c y s k rest ρ''

end Backprop
end Verif
