import Verif.Model.Op
/-!
# Model of the data-movement operators (app/tenncor/src/graph/operations/transform.ipp)

Each operator is a shape function and a kernel on raw buffers; raw reads and writes outside a buffer
and `std::vector::operator[]` outside the vector are `ub`.  The reuse of an existing parent node is
modelled in `Verif.Model.Simplify`.
-/
namespace Verif
namespace Transform
variable {T : Type}

/-- `std::swap(l[i], l[j])`. -/
def swapAt {α : Type} (l : List α) (i j : Nat) : Outcome (List α) := do
  let x ← Outcome.read l i
  let y ← Outcome.read l j
  let l ← Outcome.write l i y
  Outcome.write l j x

/-- The ordering of the axes, transform.ipp:21-24. -/
def orderAxes (ax : Nat × Nat) : Nat × Nat := if ax.1 > ax.2 then (ax.2, ax.1) else ax

/-- Shape of `transpose`, transform.ipp:40-54, with ordered axes. -/
def transposeShaper (ax : Nat × Nat) : Shaper
  | [ts] =>
    if ts.isFullyDefined then
      let inl := if ax.2 ≥ ts.length then ts ++ List.replicate (ax.2 - ts.length + 1) 1 else ts
      swapAt inl ax.1 ax.2
    else .ok []
  | _ => .ub

/-- Kernel of `transpose`, transform.ipp:55-81, with ordered axes. -/
def transposeKernel (ax : Nat × Nat) : TransferFunc T
  | dest, [src], outs, [inn] =>
    let n := outs.nElems
    let rank := inn.length
    if ax.1 ≥ rank then .ok dest
    else if ax.2 ≥ rank then memcpy dest 0 src 0 n
    else Outcome.fill n (fun i => do
      let coords ← outs.coordinateFromIdx i
      let coords ← swapAt coords ax.1 ax.2
      let j ← inn.flatIdx coords
      Outcome.read src j) dest
  | _, _, _, _ => .abort

/-- Shape of `fit`, transform.ipp:103-106. -/
def fitShaper : Shaper
  | [_, watch] => .ok watch
  | _ => .ub

/-- The bound check of `fit`, transform.ipp:117-125: first positions compared with the source
extents, then the remaining coordinates with 0. -/
def fitInbound : Nat → List Nat → Shape → Bool
  | 0, coords, _ => coords.all (· == 0)
  | k + 1, c :: cs, d :: ds => decide (c < d) && fitInbound k cs ds
  | _ + 1, _, _ => false

/-- Kernel of `fit`, transform.ipp:107-128. -/
def fitKernel (zero : T) : TransferFunc T
  | dest, [src, _], outs, [inn, watch] =>
    let minrank := min inn.length watch.length
    Outcome.fill outs.nElems (fun i => do
      let coords ← outs.coordinateFromIdx i
      if fitInbound minrank coords inn then
        let j ← inn.flatIdx coords
        Outcome.read src j
      else .ok zero) dest
  | _, _, _, _ => .abort

/-- Shape of `extend`, transform.ipp:148-170. -/
def extendShaper (index multiplier : Nat) : Shaper
  | [ts] => do
    Outcome.assert ts.isFullyDefined
    let dims := ts.length
    if index ≥ dims then
      return ts ++ List.replicate (index - dims) 1 ++ [multiplier]
    else
      let d ← Outcome.read ts index
      Outcome.write ts index (d * multiplier)
  | _ => .ub

/-- Kernel of `extend`, transform.ipp:171-184.  `as_list()[index]` is undefined when `index` is not
below the rank. -/
def extendKernel (index : Nat) : TransferFunc T
  | dest, [src], outs, [inn] => do
    let dim ← Outcome.read inn index
    Outcome.fill outs.nElems (fun i => do
      let coords ← outs.coordinateFromIdx i
      let c ← Outcome.read coords index
      if dim = 0 then .ub
      else
        let coords ← Outcome.write coords index (c % dim)
        let j ← inn.flatIdx coords
        Outcome.read src j) dest
  | _, _, _, _ => .abort

/-- Shape of `compress` with an axis, transform.ipp:206-236. -/
def compressShaper (idx : Nat) : Shaper
  | [ts] => do
    Outcome.assert ts.isFullyDefined
    let srank := ts.length
    if idx ≥ srank then return ts
    else if srank = 1 then return ts.set 0 1
    else if idx = 0 then return ts.tail
    else if srank - 1 = idx then return ts.dropLast
    else return ts.set idx 1
  | _ => .ub

/-- `coords` with a 0 at the reduced axis, transform.ipp:253-267. -/
def insertAxis (coords : List Nat) (index : Nat) : Outcome (List Nat) :=
  if index = coords.length then .ok (coords ++ [0])
  else if index = 0 then .ok (0 :: coords)
  else Outcome.write coords index 0

/-- The inner loop `for (j = 1; j < adim; j++)` of `compress`, transform.ipp:270-275, over the given
values of `j`. -/
def compressLoop (collector : T → T → T) (src : List T) (inn : Shape) (index : Nat) :
    List Nat → List Nat → T → Outcome T
  | [], _, acc => .ok acc
  | j :: js, coords, acc => do
    let coords ← Outcome.write coords index j
    let k ← inn.flatIdx coords
    let v ← Outcome.read src k
    compressLoop collector src inn index js coords (collector acc v)

/-- Kernel of `compress` with an axis, transform.ipp:238-278. -/
def compressKernel (collector : T → T → T) (index : Nat) : TransferFunc T
  | dest, [src], outs, [inn] =>
    let n := outs.nElems
    if inn.length ≤ index then memcpy dest 0 src 0 n
    else do
      let adim ← Outcome.read inn index
      Outcome.fill n (fun i => do
        let coords ← outs.coordinateFromIdx i
        let coords ← insertAxis coords index
        let k ← inn.flatIdx coords
        let v ← Outcome.read src k
        compressLoop collector src inn index (List.range' 1 (adim - 1)) coords v) dest
  | _, _, _, _ => .abort

/-- Shape of `compress` without an axis, transform.ipp:282. -/
def compressAllShaper : Shaper
  | _ => .ok [1]

/-- Kernel of `compress` without an axis, transform.ipp:284-292 (`std::accumulate`). -/
def compressAllKernel (collector : T → T → T) : TransferFunc T
  | dest, [src], _, [inn] =>
    let n := inn.nElems
    if n = 0 then .ok dest
    else if n ≤ src.length then
      match src.take n with
      | x :: xs => Outcome.write dest 0 (xs.foldl collector x)
      | [] => .ub
    else .ub
  | _, _, _, _ => .abort

/-- Shape of `arg_compress` with an axis, transform.ipp:368-394. -/
def argCompressShaper (dim : Nat) : Shaper
  | [ts] => do
    Outcome.assert ts.isFullyDefined
    if dim ≥ ts.length then .throw .logicError
    else
      let tv := ts.set dim 1
      if tv.length > 1 then
        if dim = 0 then return tv.tail
        else if tv.length - 1 = dim then return tv.dropLast
        else return tv
      else return tv
  | _ => .ub

/-- `coords` prepared for `arg_compress`, transform.ipp:403-413. -/
def argInsertAxis (coords : List Nat) (index : Nat) : List Nat :=
  if index = coords.length then coords ++ [0]
  else if index = 0 then 0 :: coords
  else coords

/-- The loop filling `search_vec`, transform.ipp:414-419, over the given values of `j`. -/
def searchVec (src : List T) (inn : Shape) (index : Nat) : List Nat → List Nat → Outcome (List T)
  | [], _ => .ok []
  | j :: js, coords => do
    let coords ← Outcome.write coords index j
    let k ← inn.flatIdx coords
    let v ← Outcome.read src k
    let vs ← searchVec src inn index js coords
    return v :: vs

/-- Kernel of `arg_compress` with an axis, transform.ipp:395-422. -/
def argCompressKernel (search : List T → Outcome T) (index : Nat) : TransferFunc T
  | dest, [src], outs, [inn] =>
    Outcome.fill outs.nElems (fun i => do
      let coords ← outs.coordinateFromIdx i
      let coords := argInsertAxis coords index
      let adim ← Outcome.read inn index
      let vs ← searchVec src inn index (List.range adim) coords
      search vs) dest
  | _, _, _, _ => .abort

/-- Shape of `arg_compress` without an axis, transform.ipp:426-429. -/
def argCompressAllShaper : Shaper
  | ts :: _ => .ok [ts.length]
  | [] => .ub

/-- Kernel of `arg_compress` without an axis, transform.ipp:431-438. -/
def argCompressAllKernel (search : List T → Outcome T) : TransferFunc T
  | dest, [src], _, [inn] =>
    if inn.nElems ≤ src.length then do
      let v ← search (src.take inn.nElems)
      Outcome.write dest 0 v
    else .ub
  | _, _, _, _ => .abort

/-- `std::max_element(begin, end, a < b)` as a position: the loop keeps the largest element seen and
moves only when the largest is less than the current one. Arguments: remaining elements, position of
the next element, position and value of the largest so far. -/
def maxElementLoop (lt : T → T → Bool) : List T → Nat → Nat → T → Nat
  | [], _, best, _ => best
  | x :: xs, i, best, b => if lt b x then maxElementLoop lt xs (i + 1) i x else maxElementLoop lt xs (i + 1) best b

/-- `std::max_element` on an empty range returns `end`, i.e. position 0. -/
def maxElement (lt : T → T → Bool) : List T → Nat
  | [] => 0
  | x :: xs => maxElementLoop lt xs 1 0 x

/-- The search function of `arg_max`, transform.ipp:453-457; `ofNat` is the conversion of the
distance to `T`. -/
def argMaxSearch (lt : T → T → Bool) (ofNat : Nat → T) (vs : List T) : Outcome T :=
  .ok (ofNat (maxElement lt vs))

/-- Shape of `flip`, transform.ipp:478-481. -/
def flipShaper : Shaper
  | ts :: _ => .ok ts
  | [] => .ub

/-- The loop `for (d : dims) coord[d] = outlist[d] - coord[d] - 1`, transform.ipp:491-494.  The
arithmetic is on `size_t`; all values stay within `0 .. outlist[d] - 1` when the coordinate is in
range, otherwise the model reports `ub` (the wrapped value is out of range). -/
def flipLoop (outlist : Shape) : List Nat → List Nat → Outcome (List Nat)
  | [], coord => .ok coord
  | d :: ds, coord => do
    let o ← Outcome.read outlist d
    let c ← Outcome.read coord d
    if c < o then
      let coord ← Outcome.write coord d (o - c - 1)
      flipLoop outlist ds coord
    else .ub

/-- Kernel of `flip`, transform.ipp:482-497. -/
def flipKernel (dims : List Nat) : TransferFunc T
  | dest, [src], outs, [inn] =>
    Outcome.fill outs.nElems (fun i => do
      let coord ← outs.coordinateFromIdx i
      let coord ← flipLoop outs dims coord
      let j ← inn.flatIdx coord
      Outcome.read src j) dest
  | _, _, _, _ => .abort

/-- Subtraction of `size_t`, wrapping around (for operands below 2^64). -/
def wrapSub (a b : Nat) : Nat := (a + 2 ^ 64 - b) % 2 ^ 64

/-- `outshape[d] -= filtshape[d] + 1`, transform.ipp:523-524. -/
def corrExtent (filt : Shape) (out : Shape) (d : Nat) : Outcome Shape :=
  Outcome.read filt d >>= fun f => Outcome.read out d >>= fun o => Outcome.write out d (wrapSub o (f + 1))

/-- Shape of `cross_corr2d`, transform.ipp:519-526. -/
def corrShaper (d1 d2 : Nat) : Shaper
  | [ts, filt] => corrExtent filt ts d1 >>= fun o => corrExtent filt o d2
  | _ => .ub

/-- `coord[d]++`, transform.ipp:547 and 549. -/
def bump (d : Nat) (coord : List Nat) : Outcome (List Nat) :=
  Outcome.read coord d >>= fun c => Outcome.write coord d (c + 1)

section
variable {T : Type} [Zero T] [Add T] [Mul T]

/-- The inner loop of `cross_corr2d` with `n` rounds left, transform.ipp:543-548; the second factor is read from the
first source as well. -/
def corrInner (src : List T) (inn : Shape) (d2 firstn j : Nat) : Nat → Nat → List Nat × T → Outcome (List Nat × T)
  | 0, _, st => .ok st
  | n + 1, k, (coord, acc) =>
    inn.flatIdx coord >>= fun i => Outcome.read src i >>= fun x => Outcome.read src (k * firstn + j) >>= fun y =>
      bump d2 coord >>= fun coord' => corrInner src inn d2 firstn j n (k + 1) (coord', acc + x * y)

/-- The outer loop, transform.ipp:541-550. -/
def corrOuter (src : List T) (inn : Shape) (d1 d2 firstn secondn : Nat) : Nat → Nat → List Nat × T → Outcome (List Nat × T)
  | 0, _, st => .ok st
  | n + 1, j, st =>
    corrInner src inn d2 firstn j secondn 0 st >>= fun st' =>
      bump d1 st'.1 >>= fun coord' => corrOuter src inn d1 d2 firstn secondn n (j + 1) (coord', st'.2)

/-- Kernel of `cross_corr2d`, transform.ipp:527-552. -/
def corrKernel (d1 d2 : Nat) : TransferFunc T
  | dest, [src, _], outs, inn :: _ =>
    Outcome.read inn d1 >>= fun i1 => Outcome.read outs d1 >>= fun o1 =>
      Outcome.read inn d2 >>= fun i2 => Outcome.read outs d2 >>= fun o2 =>
        Outcome.fill outs.nElems (fun i =>
          outs.coordinateFromIdx i >>= fun coord =>
            corrOuter src inn d1 d2 (wrapSub i1 o1) (wrapSub i2 o2) (wrapSub i1 o1) 0 (coord, 0) >>= fun st =>
              .ok st.2) dest
  | _, _, _, _ => .abort

end

end Transform
end Verif
