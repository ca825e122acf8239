import Verif.Model.Op
/-!
# Model of the element-wise shape functions and kernels
(app/tenncor/src/graph/operations/elementary.ipp)
-/
namespace Verif
namespace Elementary
variable {T : Type}

/-- The loop of `elementary_shaper`, elementary.ipp:19-35. -/
def shaperLoop : List Shape → Shape → Outcome Shape
  | [], lastshape => .ok lastshape
  | s :: ss, lastshape =>
    if s.nElems = 1 then shaperLoop ss lastshape
    else if !s.isCompatibleWith lastshape then .throw .runtimeError
    else shaperLoop ss s

/-- `elementary_shaper`, elementary.ipp:16-38. -/
def elementaryShaper : Shaper := fun shapes => do
  let lastshape ← shaperLoop shapes []
  if !lastshape.isFullyDefined then return [1] else return lastshape

/-- `binary_elem`, elementary.ipp:92-107; `left_mul`, `right_mul` are 0 or 1. -/
def binaryElem (aggregate : T → T → T) : TransferFunc T
  | dest, [a, b], outs, [sa, sb] =>
    let nOut := outs.nElems
    let leftMul := if sa.nElems > 1 then 1 else 0
    let rightMul := if sb.nElems > 1 then 1 else 0
    Outcome.fill nOut (fun i => do
      let x ← Outcome.read a (i * leftMul)
      let y ← Outcome.read b (i * rightMul)
      return aggregate x y) dest
  | _, _, _, _ => .abort

/-- `std::transform(src[0], src[0] + n_elems, dest, f)` of the unary operators, elementary.ipp:459-466
(abs), 503-510 (neg), and the same kernel in sin, cos, tan, csc, sec, cot, exp, sqrt, round, log, pow,
clip_val and the scalar operators (521-995, 1332-1860). -/
def unaryElem (f : T → T) : TransferFunc T
  | dest, [a], outs, [_] =>
    Outcome.fill outs.nElems (fun i => do
      let x ← Outcome.read a i
      return f x) dest
  | _, _, _, _ => .abort

/-- The list `s2list` of `binary_axial_shape`, elementary.ipp:62-76: the extents of the full operand
with the axis dropped (first or last) or set to 1.  `begin()+1` of an empty vector and `s2list[axis]`
past the end are undefined. -/
def axialDrop (axis : Nat) (shape2 : Shape) : Outcome Shape :=
  if axis = 0 then (if shape2 = [] then .ub else .ok shape2.tail)
  else if shape2 = [] then .ub
  else if axis = shape2.length - 1 then .ok shape2.dropLast
  else Outcome.write shape2 axis 1

/-- `binary_axial_shape`, elementary.ipp:40-89. -/
def axialShaper (axis : Nat) (left : Bool) : Shaper
  | [s0, s1] =>
    let shape1 := if left then s0 else s1
    let shape2 := if left then s1 else s0
    if shape1.nElems = 1 then .ok shape2
    else if shape2.nElems = 1 then .ok shape1
    else axialDrop axis shape2 >>= fun s2list =>
      if !shape1.isCompatibleWith s2list then .throw .runtimeError
      else if !shape2.isFullyDefined then .ok [1]
      else .ok shape2
  | _ => .ub

/-- The condition `axis == 0 && ilist[axis] != olist[axis]`, elementary.ipp:140; reading `ilist` or
`olist` past the end is undefined. -/
def axialFront (axis : Nat) (outs axial : Shape) : Outcome Bool :=
  if axis = 0 then do
    let a ← Outcome.read axial axis
    let o ← Outcome.read outs axis
    .ok (a != o)
  else .ok false

/-- The condition `axis >= ilist.size() || (ilist[axis] == 1 && olist[axis] > 1)`,
elementary.ipp:156. -/
def axialInner (axis : Nat) (outs axial : Shape) : Outcome Bool :=
  if axis ≥ axial.length then .ok true
  else do
    let a ← Outcome.read axial axis
    if a = 1 then do
      let o ← Outcome.read outs axis
      .ok (decide (o > 1))
    else .ok false

/-- The source index computed by `binary_axial`, elementary.ipp:139-161. -/
def axialIndex (axis : Nat) (outs axial : Shape) (i : Nat) : Outcome Nat := do
  let c1 ← axialFront axis outs axial
  if c1 then do
    let coords ← outs.coordinateFromIdx i
    let a ← Outcome.read axial axis
    let o ← Outcome.read outs (axis + 1)
    if a ≠ o then .throw .logicError
    else axial.flatIdx coords.tail
  else do
    let c2 ← axialInner axis outs axial
    if c2 then do
      let coords ← outs.coordinateFromIdx i
      let coords ← Outcome.write coords axis 0
      axial.flatIdx coords
    else .ok i

/-- `binary_axial`, elementary.ipp:110-166. -/
def binaryAxial (aggregate : T → T → T) (axis : Nat) (left : Bool) : TransferFunc T
  | dest, [s0, s1], outs, [i0, i1] =>
    let agg := if left then aggregate else fun x y => aggregate y x
    let (ax, other) := if left then (s0, s1) else (s1, s0)
    let axial := if left then i0 else i1
    if axial.nElems = 1 then
      Outcome.fill outs.nElems (fun i => do
        let x ← Outcome.read ax 0
        let y ← Outcome.read other i
        return agg x y) dest
    else
      Outcome.fill outs.nElems (fun i => do
        let k ← axialIndex axis outs axial i
        let x ← Outcome.read ax k
        let y ← Outcome.read other i
        return agg x y) dest
  | _, _, _, _ => .abort

end Elementary
end Verif
