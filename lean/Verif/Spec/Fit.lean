import Verif.Spec.Tensor
/-!
# Fitting one shape onto another

`Within s c`: the coordinate `c`, of any rank, names a cell of a box of extents `s` placed at the
origin: below the extent along the axes of `s`, zero along every further axis.  `onAxes s c` is that
cell as a coordinate of `s` (missing axes at 0, further axes dropped).
-/
namespace Verif.Spec

def Within (s c : List Nat) : Prop :=
  (∀ k, k < s.length → c.getD k 0 < s.getD k 0) ∧ ∀ k, s.length ≤ k → c.getD k 0 = 0

def onAxes (s c : List Nat) : List Nat := (List.range s.length).map (fun k => c.getD k 0)

end Verif.Spec
