import Verif.Spec.Kernel
import Verif.Spec.Shape
import Mathlib.Algebra.Field.Defs
/-!
# Specification of averages and of shape nodes (C76)
-/
namespace Verif.Spec

/-- The arithmetic mean of a list. -/
def mean {K : Type} [Field K] (l : List K) : K := l.sum / (l.length : K)

/-- All the elements of a tensor of shape `s` with `f c` at coordinate `c`. -/
def elements {K : Type} (s : List Nat) (f : List Nat → K) : List K := (List.range (vol s)).map (fun i => f (coords s i))

/-- Entry (j, i) of the table a shape node makes: number j read off argument i, or 1 where there is none. -/
def tableAt {K : Type} [One K] [NatCast K] (rows : List (List Nat)) (i j : Nat) : K :=
  match (rows.getD i [])[j]? with
  | some v => (v : K)
  | none => 1

end Verif.Spec
