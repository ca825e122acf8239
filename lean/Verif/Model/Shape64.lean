/-!
# 64-bit `n_elems` (app/tenncor/src/tensor/tensorshape.cpp:30-39)

`size_t` as `UInt64`: multiplication wraps modulo 2^64.
-/
namespace Verif.Shape64

/-- `n_elems`, tensorshape.cpp:30-39, in machine arithmetic. -/
def nElems (s : List UInt64) : UInt64 :=
  if s.isEmpty then 0 else s.foldl (fun a b => a * b) 1

/-- `is_fully_defined`, tensorshape.cpp:128-140. -/
def isFullyDefined (s : List UInt64) : Bool :=
  if s.isEmpty then false else s.foldl (fun known d => known && decide (0 < d)) true

/-- `iallocator::allocate<T>(n)`, include/memory/iallocator.hpp:55-67: `none` is the null pointer
(request too large); otherwise the number of bytes requested from `get_raw`. -/
def allocBytes (sizeofT n : UInt64) : Option UInt64 :=
  if n > UInt64.ofNat (2 ^ 64 - 1) / sizeofT then none else some (sizeofT * n)

end Verif.Shape64
