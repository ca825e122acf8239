import Verif.Model.Jacs
/-!
# Specification of the Jacobian lists
-/
namespace Verif.Spec
open Jacs

/-- `m` is `n` or below it: `n`, an argument of `n`, an argument of an argument, … -/
inductive Under (nodes : List Node) : Nat → Nat → Prop where
  | refl (n : Nat) : Under nodes n n
  | arg {n a m : Nat} {args : List Nat} {h : Bool} : nodes[n]? = some (.op args h) → a ∈ args → Under nodes a m → Under nodes n m

/-- Node `n` is a live operation. -/
def LiveOp (g : St) (n : Nat) : Prop := g.alive n = true ∧ ∃ args h, g.nodes[n]? = some (.op args h)

/-- A Jacobian reads no more arguments than its operation has. -/
def Honest : Call → Prop
  | .newOp args _ _ (some o) => o.reads ≤ args.length
  | _ => True

/-- Jacobians are set at the back, as `matmul` does. -/
def AtBack : Call → Prop
  | .newOp _ _ _ (some o) => o.front = false
  | _ => True

/-- The operation's own Jacobian, if it has one, is the last of every list it keeps. -/
def OwnLast (g : St) (n : Nat) : Prop :=
  ∀ v j e, g.jac n v = some j → e ∈ j.list.dropLast → e.orig ≠ n

/-- No other live operation keeps a Jacobian of `n`. -/
def Unheard (g : St) (n : Nat) : Prop :=
  ∀ k v j e, k ≠ n → g.alive k = true → g.jac k v = some j → e ∈ j.list → e.orig ≠ n

/-- An operation is copied only when its own Jacobian is the last one, and moved only when, besides, no other
operation keeps it. -/
def CopyFit (g : St) : Call → Prop
  | .clone n => OwnLast g n
  | .move n => g.nodes[n]? = some .leaf ∨ (OwnLast g n ∧ Unheard g n)
  | _ => True

/-- No operation is copied or moved. -/
def NoCopies (g : St) : Call → Prop
  | .clone n => g.nodes[n]? = some .leaf
  | .move n => g.nodes[n]? = some .leaf
  | _ => True

/-- No operation is moved. -/
def NoMoves (g : St) : Call → Prop
  | .move n => g.nodes[n]? = some .leaf
  | _ => True

/-- Every call of the history has the property at its time. -/
def AlwaysJ (P : St → Call → Prop) : List Call → St → Prop
  | [], _ => True
  | c :: cs, g => P g c ∧ ∀ g', step c g = .ok g' → AlwaysJ P cs g'

/-- The operation has no Jacobian for the variable. -/
def NoJac (g : St) (n v : Nat) : Prop := ∀ j, g.jac n v = some j → j.list = []

/-- Two arguments of the operation brought different Jacobians for the variable. -/
def Branches (g : St) (n v : Nat) : Prop := ∃ j, g.jac n v = some j ∧ j.terminal = true

/-- The node has a Jacobian for the variable: a list that is not empty. -/
def HasJac (g : St) (n v : Nat) (j : JList) : Prop := g.jac n v = some j ∧ j.list ≠ []

end Verif.Spec
