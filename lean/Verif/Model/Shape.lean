import Verif.Basic
/-!
# Model of `tensorshape` (app/tenncor/src/tensor/tensorshape.cpp)

A `tensorshape` holds one field, `std::vector<size_t> dimensions_`; the model is that list.
Extent 0 means "unknown", the empty list means "undefined".  `size_t` is `Nat` here; the
64-bit version of `n_elems` is in `Verif.Model.Shape64`.
-/
namespace Verif

/-- `tensorshape` (tensorshape.hpp, field `dimensions_`). -/
abbrev Shape := List Nat

namespace Shape

/-- `n_elems`, tensorshape.cpp:30-39. -/
def nElems (s : Shape) : Nat :=
  if s.isEmpty then 0 else s.foldl (fun a b => a * b) 1

/-- `n_known`, tensorshape.cpp:41-57. -/
def nKnown (s : Shape) : Nat :=
  if s.isEmpty then 0 else s.foldl (fun a b => if b ≠ 0 then a * b else a) 1

/-- `rank`, tensorshape.cpp:59-62. -/
def rank (s : Shape) : Nat := s.length

/-- `is_part_defined`, tensorshape.cpp:123-126. -/
def isPartDefined (s : Shape) : Bool := !s.isEmpty

/-- `is_fully_defined`, tensorshape.cpp:128-140. -/
def isFullyDefined (s : Shape) : Bool :=
  if s.isEmpty then false else s.foldl (fun known d => known && decide (0 < d)) true

/-- The loops `while (begin < n-1 && 1 == dims[begin]) begin++` of tensorshape.cpp:79,81.
The window `[begin, end]` is modelled by the sublist it denotes; here `end = n-1`. -/
def stripOnesFront : Shape → Shape
  | x :: y :: r => if x = 1 then stripOnesFront (y :: r) else x :: y :: r
  | l => l

/-- The loops `while (end > begin && 1 == dims[end]) end--` of tensorshape.cpp:80,82,
on the window as a list. -/
def stripOnesBack (l : Shape) : Shape := (stripOnesFront l.reverse).reverse

/-- `while (end - begin > len && begin < end && 0 == dims[begin]) begin++`,
tensorshape.cpp:91,101; the window length is `end - begin + 1`, and `k` is the length of the
other window. -/
def stripZerosFront (k : Nat) : Shape → Shape
  | x :: r => if k < (x :: r).length ∧ r ≠ [] ∧ x = 0 then stripZerosFront k r else x :: r
  | [] => []

/-- `while (end - begin > len && end > begin && 0 == dims[end]) end--`,
tensorshape.cpp:92,102. -/
def stripZerosBack (k : Nat) (l : Shape) : Shape := (stripZerosFront k l.reverse).reverse

/-- The test of one pair of extents, tensorshape.cpp:113-115; `0 == (a && b)` holds iff one of
the extents is 0. -/
def dimMatch (a b : Nat) : Bool := a == b || !(decide (a ≠ 0) && decide (b ≠ 0))

/-- The final comparison loop, tensorshape.cpp:111-118; stops at the shorter window. -/
def matchLoop : Shape → Shape → Bool
  | a :: as, b :: bs => dimMatch a b && matchLoop as bs
  | _, _ => true

/-- `is_compatible_with`, tensorshape.cpp:64-121. -/
def isCompatibleWith (this other : Shape) : Bool :=
  if !this.isEmpty && !other.isEmpty then
    if this.length ≠ other.length then
      let t := stripOnesBack (stripOnesFront this)
      let o := stripOnesBack (stripOnesFront other)
      if t.length > o.length then
        let t' := stripZerosBack o.length (stripZerosFront o.length t)
        if t'.length > o.length then false else matchLoop t' o
      else if o.length > t.length then
        let o' := stripZerosBack t.length (stripZerosFront t.length o)
        if o'.length > t.length then false else matchLoop t o'
      else matchLoop t o
    else matchLoop this other
  else true

/-- One position of the loop of `merge_with`, tensorshape.cpp:179-189. -/
def mergeDim (value ovalue : Nat) : Nat :=
  if value = ovalue ∨ (value ≠ 0 ∧ ovalue ≠ 0) then value else value + ovalue

/-- `merge_with`, tensorshape.cpp:160-192. -/
def mergeWith (this other : Shape) : Outcome Shape :=
  if this.isEmpty then .ok other
  else if other.isEmpty then .ok this
  else if this.length ≠ other.length then .throw .logicError
  else .ok (List.zipWith mergeDim this other)

/-- `trim`, tensorshape.cpp:194-211.  The window `[start, end]` keeps at least one element; if
the one element left is 1 the result is empty. -/
def trim (s : Shape) : Shape :=
  if s.isEmpty then []
  else
    let w := stripOnesBack (stripOnesFront s)
    if 1 < w.length ∨ w ≠ [1] then w else []

/-- `concatenate`, tensorshape.cpp:213-226. -/
def concatenate (this other : Shape) : Shape :=
  if this.isEmpty then other else if other.isEmpty then this else this ++ other

/-- `with_rank`, tensorshape.cpp:228-250. -/
def withRank (s : Shape) (r : Nat) : Shape :=
  if r < s.length then s.take r
  else if r > s.length then s ++ List.replicate (r - s.length) 1
  else s

/-- `with_rank_at_least`, tensorshape.cpp:252-263. -/
def withRankAtLeast (s : Shape) (r : Nat) : Shape :=
  if r > s.length then s ++ List.replicate (r - s.length) 1 else s

/-- `with_rank_at_most`, tensorshape.cpp:265-279. -/
def withRankAtMost (s : Shape) (r : Nat) : Shape :=
  if r < s.length then s.take r else s

/-- The loop of `flat_idx`, tensorshape.cpp:283-289.  Every index read is below
`n = min(rank, |coord|)`, so the default of `getD` is never used. -/
def flatLoop (s : Shape) (coord : List Nat) : Nat :=
  let n := min s.length coord.length
  (List.range' 1 (n - 1)).foldl
    (fun index i => (index + coord.getD (n - i) 0) * s.getD (n - i - 1) 0) 0

/-- `flat_idx`, tensorshape.cpp:281-291.  `coord[0]` of an empty coordinate is undefined. -/
def flatIdx (s : Shape) (coord : List Nat) : Outcome Nat :=
  match coord[0]? with
  | some c0 => .ok (flatLoop s coord + c0)
  | none => .ub

/-- The loop of `coordinate_from_idx`, tensorshape.cpp:297-302; `i % 0` is undefined. -/
def coordLoop : Shape → Nat → Outcome (List Nat)
  | [], _ => .ok []
  | d :: ds, i =>
    if d = 0 then .ub
    else do
      let xd := i % d
      let rest ← coordLoop ds ((i - xd) / d)
      return xd :: rest

/-- `coordinate_from_idx`, tensorshape.cpp:293-304. -/
def coordinateFromIdx (s : Shape) (idx : Nat) : Outcome (List Nat) := coordLoop s idx

/-- `iterate`, tensorshape.cpp:306-313: the list of callback arguments, in call order. -/
def iterate (s : Shape) : Outcome (List (List Nat × Nat)) :=
  Outcome.forM' (List.range s.nElems) (fun i => do
    let c ← s.coordinateFromIdx i
    return (c, i))

end Shape
end Verif
