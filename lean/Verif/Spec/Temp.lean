import Verif.Spec.Expr
import Verif.Model.Temp
import Mathlib.Logic.Relation
/-!
# Specification of differentiation with respect to an operation
-/
namespace Verif.Spec
open Expr

/-- Node `n` is an operation with argument `a`. -/
def ArgOf (S : St) (a n : Nat) : Prop := ∃ nd : Node, S.nodes[n]? = some nd ∧ a ∈ nd.args

/-- Node `n` has arguments. -/
def Operation (S : St) (n : Nat) : Prop := ∃ a, ArgOf S a n

/-- `t` is below `y`: the value of `y` is computed from that of `t`. -/
def Below (S : St) (t y : Nat) : Prop := Relation.ReflTransGen (ArgOf S) t y

/-- Two operations belong to one graph when a chain of operations, each an argument of the next or the other way
around, leads from one to the other (sharing a variable or a constant does not count). -/
def OneGraph (S : St) : Nat → Nat → Prop :=
  Relation.EqvGen (fun a n => Operation S a ∧ ArgOf S a n)

/-- Element `i` of node `n` would be `v` if element `i` of node `t` were `c`. -/
inductive With (S : St) (ρ : Nat → ℝ) (i t : Nat) (c : ℝ) : Nat → ℝ → Prop where
  | here : With S ρ i t c t c
  | leaf {n : Nat} {tr : Bool} : n ≠ t → S.nodes[n]? = some (.leaf tr) → With S ρ i t c n (ρ n)
  | const {n : Nat} {d : List ℝ} {v : ℝ} : n ≠ t → S.nodes[n]? = some (.const d) → constAt d i = some v → With S ρ i t c n v
  | un {n : Nat} {k : K1} {a : Nat} {u : ℝ} : n ≠ t → S.nodes[n]? = some (.un k a) → With S ρ i t c a u →
      With S ρ i t c n (k.fn u)
  | bin {n : Nat} {k : K2} {a b : Nat} {u w : ℝ} : n ≠ t → S.nodes[n]? = some (.bin k a b) → With S ρ i t c a u →
      With S ρ i t c b w → With S ρ i t c n (k.fn u w)

/-- The states reached by a history of constructions and derivations with respect to variables, followed by any
number of derivations with respect to operations. -/
def Built (fmt : ℝ → List Char) (S : St) : Prop :=
  ∃ cs ds S0, run fmt cs St.init = .ok S0 ∧ runOps ds S0 = .ok S

end Verif.Spec
