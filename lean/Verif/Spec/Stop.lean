import Verif.Model.Stop
/-!
# Specification vocabulary for stoppable threads
-/
namespace Verif.Spec
open Stop

/-- The worker that made a step, if a worker did. -/
def Doer : Ev → Option Nat
  | .worked w => some w
  | .polled w _ => some w
  | .tested w _ => some w
  | .slept w => some w
  | .woke w => some w
  | .ended w => some w
  | _ => none

/-- From state `s` a worker told to stop comes to a `stop_throw` (or returns) after at most `n` pieces of work and
`stop_wait`s, whatever choices it makes, and never gets stuck. -/
inductive Polls {σ : Type} (code : σ → Instr σ) : Nat → σ → Prop where
  | poll {n : Nat} {s s' : σ} : code s = .poll s' → Polls code n s
  | done {n : Nat} {s : σ} : code s = .done → Polls code n s
  | work {n : Nat} {s : σ} {next : σ → Prop} : code s = .work next → (∃ s', next s') → (∀ s', next s' → Polls code n s') → Polls code (n + 1) s
  | wait {n : Nat} {s s' : σ} : code s = .wait s' → Polls code n s' → Polls code (n + 1) s

/-- How many steps of a run worker `w` made. -/
def steps (w : Nat) (tr : List Ev) : Nat := (tr.filter (fun e => decide (Doer e = some w))).length

end Verif.Spec
