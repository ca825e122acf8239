import Verif.Basic
import Mathlib.Data.Real.Basic
import Mathlib.Algebra.Order.Floor.Ring
import Mathlib.Algebra.Order.Archimedean.Real.Basic
/-!
# Model of the deep-Q agent's bookkeeping (app/rocnnet/src/models/dq_net.cpp)

Simplifications.  `double` is `ℝ`; counters do not wrap.  What the network computes and how its weights move
is left to the models of the graph; `train` reports the batch it enters, and `action` is given the outcome of
evaluating `best_output_`.  `std::random_shuffle` is the list of indices it leaves behind, a parameter of each
call; likewise the two draws of `get_random`.
-/
namespace Verif.Dqn

/-- `dqn_param`, include/models/dq_net.hpp:24-36. -/
structure Params where
  trainInterval : Nat
  randActionProb : ℝ
  explorationPeriod : ℝ
  storeInterval : Nat
  miniBatch : Nat
  maxExp : Nat

/-- `exp_batch`, include/models/dq_net.hpp:84-91. -/
structure Exp where
  observation : List ℝ
  action : Nat
  reward : ℝ
  newObservation : List ℝ

/-- The scalar state of the agent, include/models/dq_net.hpp. -/
structure Agent where
  experiences : List Exp
  actionsExecuted : Nat
  iteration : Nat
  nStore : Nat
  nTrain : Nat

/-- A freshly constructed agent. -/
def fresh : Agent := ⟨[], 0, 0, 0, 0⟩

/-- `experiences_.front() = std::move(experiences_.back()); experiences_.pop_back();`, dq_net.cpp:95-96. -/
def backToFront (l : List Exp) : List Exp :=
  match l.getLast? with
  | some e => (l.set 0 e).dropLast
  | none => []

/-- dq_net.cpp:92-97. -/
def remember (maxExp : Nat) (mem : List Exp) (e : Exp) : List Exp :=
  if (mem ++ [e]).length > maxExp then backToFront (mem ++ [e]) else mem ++ [e]

/-- `store`, dq_net.cpp:87-100.  The remainder by zero is undefined behaviour. -/
def store (p : Params) (e : Exp) (a : Agent) : Outcome Agent :=
  if p.storeInterval = 0 then .ub
  else if a.nStore % p.storeInterval = 0 then
    .ok { a with experiences := remember p.maxExp a.experiences e, nStore := a.nStore + 1 }
  else .ok { a with nStore := a.nStore + 1 }

/-- What `train` enters into the placeholders, dq_net.cpp:113-117. -/
structure Batch where
  states : List ℝ
  newStates : List ℝ
  actionMask : List ℝ
  newStatesMask : List ℝ
  rewards : List ℝ

/-- One round of the loop, dq_net.cpp:119-139.  `local_act_mask[action_idx_]` past the end is undefined. -/
def addSample (ninput noutput : Nat) (b : Batch) (e : Exp) : Outcome Batch :=
  Outcome.write (List.replicate noutput (0 : ℝ)) e.action 1 >>= fun mask =>
    .ok { states := b.states ++ e.observation
          newStates := b.newStates ++ (if e.newObservation.isEmpty then List.replicate ninput 0 else e.newObservation)
          actionMask := b.actionMask ++ mask
          newStatesMask := b.newStatesMask ++ [if e.newObservation.isEmpty then 0 else 1]
          rewards := b.rewards ++ [e.reward] }

/-- The loop, dq_net.cpp:113-139. -/
def assembleFrom (ninput noutput : Nat) : Batch → List Exp → Outcome Batch
  | b, [] => .ok b
  | b, e :: es => addSample ninput noutput b e >>= fun b' => assembleFrom ninput noutput b' es

def assemble (ninput noutput : Nat) (l : List Exp) : Outcome Batch := assembleFrom ninput noutput ⟨[], [], [], [], []⟩ l

/-- `random_sample`, dq_net.cpp:340-352, given the shuffled indices. -/
def randomSample (k : Nat) (mem : List Exp) (idx : List Nat) : Outcome (List Exp) :=
  match k with
  | 0 => .ok []
  | k + 1 => randomSample k mem idx >>= fun res => Outcome.read idx k >>= fun i =>
      Outcome.read mem i >>= fun e => .ok (res ++ [e])

/-- `train`, dq_net.cpp:102-162; the second component is the batch trained on, if any. -/
def train (p : Params) (ninput noutput : Nat) (idx : List Nat) (a : Agent) : Outcome (Agent × Option Batch) :=
  if p.trainInterval = 0 then .ub
  else if a.nTrain % p.trainInterval = 0 then
    if a.experiences.length < p.miniBatch then .ok (a, none)
    else randomSample p.miniBatch a.experiences idx >>= fun samples => assemble ninput noutput samples >>= fun b =>
      .ok ({ a with iteration := a.iteration + 1, nTrain := a.nTrain + 1 }, some b)
  else .ok ({ a with nTrain := a.nTrain + 1 }, none)

/-- `linear_annealing`, dq_net.cpp:327-333. -/
noncomputable def linearAnnealing (p : Params) (executed : Nat) (initial : ℝ) : ℝ :=
  open Classical in
  if p.explorationPeriod ≤ executed then p.randActionProb
  else initial - executed * (initial - p.randActionProb) / p.explorationPeriod

/-- `action`, dq_net.cpp:72-85: `r` and `r'` are the draws, `best` the outcome of exposing `best_output_`. -/
noncomputable def action (p : Params) (noutput : Nat) (r r' : ℝ) (best : Outcome (List ℝ)) (a : Agent) : Outcome (Agent × ℝ) :=
  open Classical in
  let a' : Agent := { a with actionsExecuted := a.actionsExecuted + 1 }
  if r < linearAnnealing p a'.actionsExecuted 1 then .ok (a', (⌊r' * noutput⌋ : ℤ))
  else best >>= fun b => match b with
    | [] => .abort
    | v :: _ => .ok (a', v)

/-- Calls on an agent. -/
inductive Call where
  | store (e : Exp)
  | train (idx : List Nat)
  | action (r r' : ℝ) (best : Outcome (List ℝ))

/-- What a call reports: the batch trained on, the action chosen. -/
inductive Report where
  | none
  | trained (b : Batch)
  | chose (v : ℝ)

noncomputable def step (p : Params) (ninput noutput : Nat) (a : Agent) : Call → Outcome (Agent × Report)
  | .store e => store p e a >>= fun a' => .ok (a', .none)
  | .train idx => train p ninput noutput idx a >>= fun x => .ok (x.1, match x.2 with | some b => .trained b | none => .none)
  | .action r r' best => action p noutput r r' best a >>= fun x => .ok (x.1, .chose x.2)

/-- A history of calls, with their reports. -/
noncomputable def run (p : Params) (ninput noutput : Nat) : Agent → List Call → Outcome (Agent × List Report)
  | a, [] => .ok (a, [])
  | a, c :: cs => step p ninput noutput a c >>= fun x => run p ninput noutput x.1 cs >>= fun y => .ok (y.1, x.2 :: y.2)

end Verif.Dqn
