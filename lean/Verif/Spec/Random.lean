import Verif.Model.Random
/-!
# Specification vocabulary for random initialisation (C77)
-/
namespace Verif.Spec
open Random

/-- The call draws from the shared generator (or reseeds it). -/
def Draws : Ev → Prop
  | .seed _ | .node | .variable _ _ _ | .sample _ _ | .explore _ _ => True
  | .init _ | .shuffle _ => False

/-- The call does not concern variable x. -/
def Spares (x : Nat) : Ev → Prop
  | .variable y _ _ | .init y => y ≠ x
  | _ => True

/-- The call does not depend on `std::rand`. -/
def NoShuffle : Ev → Prop
  | .shuffle _ => False
  | _ => True

end Verif.Spec
