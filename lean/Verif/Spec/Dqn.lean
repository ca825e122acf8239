import Verif.Model.Dqn
/-! # Specification vocabulary for the agent's histories -/
namespace Verif.Spec
open Dqn

/-- The experiences passed to `store`, in order. -/
def offered : List Call → List Exp
  | [] => []
  | .store e :: cs => e :: offered cs
  | _ :: cs => offered cs

/-- The entries of `l` at positions 0, k, 2k, ... -/
def everyNth {α : Type} (k : Nat) (l : List α) : List α :=
  (List.range l.length).filterMap fun i => if i % k = 0 then l[i]? else none

/-- How many of `n` calls numbered from 0 have a number divisible by `k`. -/
def due (k n : Nat) : Nat := (n + k - 1) / k

/-- The number of `train` calls in `cs` made when at least `m` experiences were in a memory of `cap` that
records every `k`-th one offered; `before` experiences had been offered earlier. -/
def readyTrains (k cap m : Nat) : Nat → List Call → Nat
  | _, [] => 0
  | before, .store _ :: cs => readyTrains k cap m (before + 1) cs
  | before, .train _ :: cs => (if m ≤ min cap (due k before) then 1 else 0) + readyTrains k cap m before cs
  | before, .action _ _ _ :: cs => readyTrains k cap m before cs

/-- The calls that choose an action. -/
def actions : List Call → Nat
  | [] => 0
  | .action _ _ _ :: cs => actions cs + 1
  | _ :: cs => actions cs

/-- The 0/1 vector of length `n` with its 1 at `i`. -/
def oneHot (n i : Nat) : List ℝ := (List.range n).map fun j => if j = i then 1 else 0

end Verif.Spec

namespace Verif.Spec
open Dqn

/-- Calls a caller may make: actions below the number of outputs, shuffles that permute the indices of the
memory, evaluations of the network that return something. -/
def LegalCalls (k cap noutput : Nat) : Nat → List Call → Prop
  | _, [] => True
  | before, .store e :: cs => e.action < noutput ∧ LegalCalls k cap noutput (before + 1) cs
  | before, .train idx :: cs => idx.Perm (List.range (min cap (due k before))) ∧ LegalCalls k cap noutput before cs
  | before, .action _ _ best :: cs => (∃ v b, best = .ok (v :: b)) ∧ LegalCalls k cap noutput before cs

end Verif.Spec
