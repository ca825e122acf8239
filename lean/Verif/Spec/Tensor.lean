import Verif.Spec.Shape
import Verif.Model.Tensor
/-!
# What a tensor holds

`Holds t s f`: `t` is allocated with the fully defined shape `s` and its element at coordinate `c` is
`f c`, for every coordinate in range; the buffer has exactly as many elements as coordinates.
-/
namespace Verif.Spec

structure Holds {T : Type} (t : Tensor T) (s : List Nat) (f : List Nat → T) : Prop where
  full : Full s
  shape : t.alloc = s
  data : ∃ buf, t.raw = some buf ∧ buf.length = vol s ∧
    ∀ c, InRange s c → buf[flat s c]? = some (f c)

/-- Exchange positions `i` and `j` of a list. -/
def swapPos (l : List Nat) (i j : Nat) : List Nat := (l.set i (l.getD j 0)).set j (l.getD i 0)

end Verif.Spec
