import Verif.Spec.Graph
/-!
# Specification for graphs after exceptions
-/
namespace Verif.Spec
open Graph

variable {V : Type}

/-- The expression at `n` contains the node `l`. -/
inductive Uses (nodes : List (Def V)) : Nat → Nat → Prop where
  | self (n : Nat) : Uses nodes n n
  | arg {n a l : Nat} {f : List V → Outcome V} {args : List Nat} {h : Bool} :
      nodes[n]? = some (.op f args h) → a ∈ args → Uses nodes a l → Uses nodes n l

end Verif.Spec
