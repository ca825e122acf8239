import Verif.Spec.Leaf
import Verif.Model.IO
/-! # Specification vocabulary for saving and loading -/
namespace Verif.Spec

/-- A tensor that can be saved and loaded again: it holds data filling a fully defined shape, which has the rank of
the declared shape and agrees with it. -/
structure Saveable {T : Type} (t : Tensor T) (buf : List T) : Prop where
  data : t.raw = some buf
  full : Full t.alloc
  size : buf.length = vol t.alloc
  agree : DimsAgree t.alloc t.allowed

/-- A stored proto describes data of a fully defined shape that agrees with its declared shape. -/
def ProtoOk (p : TensorProto) : Prop := Full p.alloc ∧ DimsAgree p.alloc p.allow

end Verif.Spec
