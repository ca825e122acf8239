import Verif.Spec.Shape
/-! Vocabulary for element-wise operators. -/
namespace Verif.Spec

/-- Element `i` of an operand buffer: a one-element operand is broadcast. -/
def elemAt {T : Type} (buf : List T) (i : Nat) : Option T :=
  if buf.length = 1 then buf[0]? else buf[i]?

end Verif.Spec
