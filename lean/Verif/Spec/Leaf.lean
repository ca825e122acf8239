import Verif.Spec.Shape
/-! # Specification vocabulary for leaves -/
namespace Verif.Spec

/-- `n` elements fill some fully defined shape that agrees with every known extent of `s`; any positive number
of elements fills an undefined shape. -/
def Fills (s : List Nat) (n : Nat) : Prop :=
  (s = [] ∧ 0 < n) ∨ ∃ s', Full s' ∧ Refines s' s ∧ vol s' = n

/-- Element-wise combination. -/
def mapTwo {T : Type} (f : T → T → T) : List T → List T → List T
  | a :: as, b :: bs => f a b :: mapTwo f as bs
  | _, _ => []

end Verif.Spec
