import Verif.Model.Shape
/-!
# Model of `tensor<T>` (app/tenncor/src/tensor/tensor.ipp)

A tensor owns a raw buffer (`raw_data_`, null or a block of elements), an allocated shape and an
allowed shape.  Simplifications: the allocator pointer `alloc_` is dropped (all allocators behave
the same here, the registry is modelled in `Verif.Model.Registry`); a moved-from `std::vector` is
empty, as every standard library implements it.
-/
namespace Verif

/-- The execution environment of a tensor: contents of uninitialised memory, the all-zero-bytes
value written by `memset`, and the element counts for which `iallocator::allocate`
(include/memory/iallocator.hpp:55-67) returns non-null. -/
structure Env (T : Type) where
  junk : Nat → T
  zero : T
  fits : Nat → Bool

structure Tensor (T : Type) where
  raw : Option (List T)
  alloc : Shape
  allowed : Shape

/-- Object representation of `T`: `sizeof(T)` bytes, used by `memcpy` in (de)serialisation. -/
structure ByteRep (T : Type) where
  sz : Nat
  enc : T → List UInt8
  dec : List UInt8 → T

/-- `tenncor::tensor_proto` (proto: bytes data, repeated uint64 allow_shape, alloc_shape); the wire
encoding is not modelled. -/
structure TensorProto where
  data : List UInt8
  allow : List Nat
  alloc : List Nat
  deriving DecidableEq

/-- The default-constructed message. -/
def TensorProto.empty : TensorProto := ⟨[], [], []⟩

/-- `memcpy(dest + di, src + si, n)` in units of elements. -/
def memcpy {T : Type} (dest : List T) (di : Nat) (src : List T) (si n : Nat) : Outcome (List T) :=
  if di + n ≤ dest.length ∧ si + n ≤ src.length then
    .ok (dest.take di ++ (src.drop si).take n ++ dest.drop (di + n))
  else .ub

/-- The bound check of `fit_toshape`, tensor.ipp:38-51: the loop from `i = 1`; the argument lists
start at position 1 and the loop ends at the shorter (`minrank`), `jump` is `src_jump`. -/
def boundLoop : Shape → Shape → List Nat → Nat → Bool × Nat
  | o :: os, d :: ds, c :: cs, jump =>
    if c < o then boundLoop os ds cs (jump * d) else (false, jump * (d - c))
  | _, _, _, jump => (true, jump)

/-- The `while (srcidx < numin)` loop of `fit_toshape`, tensor.ipp:34-62.  `fuel` bounds the number
of iterations; running out of it (non-termination) is `ub`. -/
def fitLoop {T : Type} (out inn clipped : Shape) (src : List T) (numin basewidth : Nat) :
    Nat → Nat → List T → Outcome (List T)
  | 0, srcidx, dest => if srcidx < numin then .ub else .ok dest
  | fuel + 1, srcidx, dest =>
    if srcidx < numin then do
      let srccoord ← clipped.coordinateFromIdx srcidx
      let (inb, jump) := boundLoop out.tail inn.tail srccoord.tail 1
      if inb then
        let destidx ← out.flatIdx srccoord
        let dest' ← memcpy dest destidx src srcidx basewidth
        fitLoop out inn clipped src numin basewidth fuel (srcidx + inn.headD 0) dest'
      else
        fitLoop out inn clipped src numin basewidth fuel (srcidx + jump * inn.headD 0) dest
    else .ok dest

/-- `fit_toshape`, tensor.ipp:19-63.  `dest` is the destination buffer (any contents). -/
def fitToShape {T : Type} (zero : T) (dest : List T) (out : Shape) (src : List T) (inn : Shape) :
    Outcome (List T) := do
  Outcome.assert (out.isFullyDefined && inn.isFullyDefined)
  let numout := out.nElems
  let minrank := min out.length inn.length
  let clipped := inn.withRank minrank
  let numin := clipped.nElems
  -- memset(dest, 0, sizeof(T) * numout)
  if numout ≤ dest.length then
    let dest' := List.replicate numout zero ++ dest.drop numout
    let basewidth := min (out.headD 0) (inn.headD 0)
    fitLoop out inn clipped src numin basewidth numin 0 dest'
  else .ub

namespace Tensor
variable {T : Type}

/-- `alloc_->allocate<T>(n)`, include/memory/iallocator.hpp:55-67. -/
def allocBuf (e : Env T) (n : Nat) : Option (List T) :=
  if e.fits n then some ((List.range n).map e.junk) else none

/-- `is_alloc`, tensor.ipp:328-332. -/
def isAlloc (t : Tensor T) : Bool := t.alloc.isFullyDefined && t.raw.isSome

/-- `tensor(void)` and `tensor(tensorshape)`, tensor.ipp:65-90. -/
def new (e : Env T) (shape : Shape) : Tensor T :=
  if shape.isFullyDefined then ⟨allocBuf e shape.nElems, shape, shape⟩ else ⟨none, [], shape⟩

/-- `tensor(T scalar)`, tensor.ipp:72-77. -/
def newScalar (e : Env T) (v : T) : Outcome (Tensor T) :=
  let t := new e [1]
  match t.raw with
  | some buf => do
    let buf' ← Outcome.write buf 0 v
    return { t with raw := some buf' }
  | none => .ub

/-- `get_shape`, tensor.ipp:142-150. -/
def getShape (t : Tensor T) : Shape := if t.isAlloc then t.alloc else t.allowed

/-- `n_elems`, tensor.ipp:152-160. -/
def nElems (t : Tensor T) : Nat := match t.raw with | none => 0 | some _ => t.alloc.nElems

/-- `is_same_size`, tensor.ipp:174-185. -/
def isSameSize (t o : Tensor T) : Bool :=
  if t.isAlloc && o.isAlloc then t.alloc.trim.isCompatibleWith o.alloc.trim
  else t.allowed.isCompatibleWith o.allowed

/-- `is_compatible_with(tensor)`, tensor.ipp:187-191. -/
def isCompatibleWith (t o : Tensor T) : Bool := t.getShape.isCompatibleWith o.getShape

/-- `is_compatible_with(vector)`, tensor.ipp:193-215; `ndata` is the vector's size. -/
def isCompatibleWithData (t : Tensor T) (ndata : Nat) : Bool :=
  let s := if t.isAlloc then t.alloc else t.allowed
  if s.isFullyDefined then ndata == s.nElems
  else if 0 < s.nKnown then ndata % s.nKnown == 0 else true

/-- `is_loosely_compatible_with`, tensor.ipp:217-231. -/
def isLooselyCompatibleWith (t : Tensor T) (ndata : Nat) : Bool :=
  let s := if t.isAlloc then t.alloc else t.allowed
  if s.isFullyDefined then decide (ndata ≤ s.nElems) else true

/-- The loop shared by `guess_shape` (tensor.ipp:250-268) and `loosely_guess_shape`
(tensor.ipp:297-314), from position `i`, with the remaining extents: returns the extents with
unknowns replaced by 1, `first_undef` and `known`. -/
def guessLoop : Shape → Nat → Nat → Nat → Shape × Nat × Nat
  | [], _, firstUndef, known => ([], firstUndef, known)
  | d :: ds, i, firstUndef, known =>
    if d = 0 then
      let (rest, f, k) := guessLoop ds (i + 1) (if firstUndef > i then i else firstUndef) known
      (1 :: rest, f, k)
    else
      let (rest, f, k) := guessLoop ds (i + 1) firstUndef (known * d)
      (d :: rest, f, k)

/-- `guess_shape`, tensor.ipp:233-282. -/
def guessShape (t : Tensor T) (ndata : Nat) : Outcome (Option Shape) :=
  if t.allowed.isFullyDefined then
    .ok (if t.allowed.nElems = ndata then some t.allowed else none)
  else if t.allowed.isPartDefined then do
    let (my, f, known) := guessLoop t.allowed 0 t.allowed.length 1
    Outcome.assert (decide (known > 0))
    if ndata % known = 0 then
      let my' ← Outcome.write my f (ndata / known)
      return some my'
    else return none
  else .ok (some [ndata])

/-- `loosely_guess_shape`, tensor.ipp:284-323.  With an undefined allowed shape the write to
`my_shape[first_undef]` is out of bounds. -/
def looselyGuessShape (t : Tensor T) (ndata : Nat) : Outcome (Option Shape) :=
  if t.allowed.isFullyDefined then
    .ok (if t.allowed.nElems ≥ ndata then some t.allowed else none)
  else do
    let (my, f, known) := guessLoop t.allowed 0 t.allowed.length 1
    let q := ndata / known
    let my' ← Outcome.write my f (if ndata % known ≠ 0 then q + 1 else q)
    return some my'

/-- `get`, tensor.ipp:341-351. -/
def get (t : Tensor T) (coord : List Nat) : Outcome T := do
  let idx ← t.alloc.flatIdx coord
  if idx ≥ t.alloc.nElems then .throw .outOfRange
  else match t.raw with
    | some buf => Outcome.read buf idx
    | none => .ub

/-- `expose`, tensor.ipp:353-358. -/
def expose (t : Tensor T) : Outcome (List T) := do
  Outcome.assert t.isAlloc
  match t.raw with
  | some buf => if t.nElems ≤ buf.length then .ok (buf.take t.nElems) else .ub
  | none => .ub

/-- `deallocate`, tensor.ipp:438-449. -/
def deallocate (t : Tensor T) : Tensor T × Bool :=
  if t.isAlloc then (⟨none, [], t.allowed⟩, true) else (t, false)

/-- `allocate(shape)`, tensor.ipp:451-480. -/
def allocateShape (e : Env T) (t : Tensor T) (shape : Shape) : Outcome (Tensor T × Bool) :=
  if t.isAlloc && shape.isCompatibleWith t.alloc then .ok (t, false)
  else if shape.isCompatibleWith t.allowed && shape.isFullyDefined then
    if t.isAlloc then
      match allocBuf e shape.nElems, t.raw with
      | some temp, some raw => do
        let temp' ← fitToShape e.zero temp shape raw t.alloc
        return (⟨some temp', shape, t.allowed⟩, true)
      | _, _ => .ub
    else .ok (⟨allocBuf e shape.nElems, shape, t.allowed⟩, true)
  else .ok (t, false)

/-- `allocate(void)`, tensor.ipp:419-436. -/
def allocate (e : Env T) (t : Tensor T) : Outcome (Tensor T × Bool) :=
  if t.isAlloc then .ok (t, false)
  else if t.alloc.isFullyDefined then allocateShape e t t.alloc
  else allocateShape e t t.allowed

/-- The shape requested by `set_shape` from `allocate`, tensor.ipp:404-412. -/
def desiredShape (shape alloc allowed : Shape) : Outcome Shape :=
  if !shape.isFullyDefined then do
    let m ← (shape.withRank alloc.rank).mergeWith alloc
    return m.withRank allowed.rank
  else .ok shape

/-- `set_shape`, tensor.ipp:391-417. -/
def setShape (e : Env T) (t : Tensor T) (shape : Shape) : Outcome (Tensor T) := do
  let t1 := if !t.allowed.isCompatibleWith shape || !t.isAlloc then { t with allowed := shape } else t
  if t1.isAlloc && !shape.isCompatibleWith t1.alloc then
    let shape' ← desiredShape shape t1.alloc t1.allowed
    let (t2, _) ← allocateShape e t1 shape'
    return t2
  else return t1

/-- `copy_from`, tensor.ipp:482-508. -/
def copyFrom (e : Env T) (t other : Tensor T) (shape : Shape) : Outcome (Tensor T × Bool) :=
  if other.isAlloc && shape.isFullyDefined then
    let allowed := if !t.allowed.isCompatibleWith shape then shape else t.allowed
    match allocBuf e shape.nElems, other.raw with
    | some temp, some oraw => do
      let temp' ← fitToShape e.zero temp shape oraw other.getShape
      return (⟨some temp', shape, allowed⟩, true)
    | _, _ => .ub
  else .ok (t, false)

/-- `serialize`, tensor.ipp:360-375, into a message with current contents `p`. -/
def serialize (r : ByteRep T) (t : Tensor T) (p : TensorProto) : Outcome TensorProto :=
  if !t.isAlloc then .ok p
  else match t.raw with
    | some buf =>
      if t.nElems ≤ buf.length then
        .ok ⟨(buf.take t.nElems).flatMap r.enc, t.allowed, t.alloc⟩
      else .ub
    | none => .ub

/-- Reinterpret the first `n * sizeof(T)` bytes as `n` elements. -/
def decodeElems (r : ByteRep T) (n : Nat) (bytes : List UInt8) : List T :=
  (List.range n).map (fun i => r.dec ((bytes.drop (i * r.sz)).take r.sz))

/-- `assert(allocate())`, tensor.ipp:527, with assertions enabled. -/
def assertAllocate (e : Env T) (t : Tensor T) : Outcome (Tensor T) := do
  let (t', b) ← allocate e t
  Outcome.assert b
  return t'

/-- `from_proto`, tensor.ipp:510-533.  `ndebug` says whether `assert` is compiled out; note that
the call of `allocate()` is inside an `assert`. -/
def fromProto (r : ByteRep T) (e : Env T) (ndebug : Bool) (t : Tensor T) (p : TensorProto) :
    Outcome (Tensor T × Bool) := do
  if !ndebug then Outcome.assert (p.alloc.length == p.allow.length) else .ok ⟨⟩
  let t1 : Tensor T := { t with allowed := p.allow }
  if !Shape.isCompatibleWith p.alloc p.allow || !Shape.isFullyDefined p.alloc then
    return (t1, false)
  else
    let (t2, _) := t1.deallocate
    let t3 : Tensor T := { t2 with alloc := p.alloc }
    let t4 ← if ndebug then Outcome.ok t3 else assertAllocate e t3
    match t4.raw with
    | some buf =>
      let bytes := buf.flatMap r.enc
      if p.data.length ≤ bytes.length then
        let bytes' := p.data ++ bytes.drop p.data.length
        return ({ t4 with raw := some (decodeElems r buf.length bytes') }, true)
      else .ub
    | none => .ub

/-- `copy_helper`, tensor.ipp:570-590: assign from `other` (the receiver's old buffer is freed).
With `shapeonly` the new buffer is left uninitialised. -/
def copyHelper (e : Env T) (other : Tensor T) (shapeonly : Bool) : Outcome (Tensor T) :=
  if other.isAlloc then
    let ns := other.alloc.nElems
    match allocBuf e ns, other.raw with
    | some buf, some oraw =>
      if shapeonly then .ok ⟨some buf, other.alloc, other.allowed⟩
      else do
        let buf' ← memcpy buf 0 oraw 0 ns
        return ⟨some buf', other.alloc, other.allowed⟩
    | none, _ =>
      if shapeonly then .ok ⟨none, other.alloc, other.allowed⟩ else .ub
    | _, none => .ub
  else .ok ⟨none, other.alloc, other.allowed⟩

/-- `move_helper`, tensor.ipp:592-606: the receiver's and the source's new states. -/
def moveHelper (other : Tensor T) : Tensor T × Tensor T :=
  (⟨other.raw, other.alloc, other.allowed⟩, ⟨none, [], []⟩)

end Tensor

/-! ### Programs over several tensors -/

/-- One call on tensors held in numbered variables. -/
inductive TOp (T : Type) where
  | new (i : Nat) (s : Shape)
  | newScalar (i : Nat) (v : T)
  | setShape (i : Nat) (s : Shape)
  | allocate (i : Nat)
  | allocateShape (i : Nat) (s : Shape)
  | deallocate (i : Nat)
  | copyFrom (i j : Nat) (s : Shape)
  | copy (i j : Nat) (shapeonly : Bool)
  | move (i j : Nat)
  | fromProto (i : Nat) (p : TensorProto)

abbrev THeap (T : Type) := Nat → Tensor T

def THeap.set {T : Type} (h : THeap T) (i : Nat) (t : Tensor T) : THeap T :=
  fun k => if k = i then t else h k

/-- Effect of one call.  Copy and move assignment check for self-assignment, tensor.ipp:122-140. -/
def tstep {T : Type} (r : ByteRep T) (e : Env T) (h : THeap T) : TOp T → Outcome (THeap T)
  | .new i s => .ok (h.set i (Tensor.new e s))
  | .newScalar i v => do return h.set i (← Tensor.newScalar e v)
  | .setShape i s => do return h.set i (← (h i).setShape e s)
  | .allocate i => do return h.set i (← (h i).allocate e).1
  | .allocateShape i s => do return h.set i (← (h i).allocateShape e s).1
  | .deallocate i => .ok (h.set i (h i).deallocate.1)
  | .copyFrom i j s => do return h.set i (← (h i).copyFrom e (h j) s).1
  | .copy i j so => if i = j then .ok h else do return h.set i (← (h j).copyHelper e so)
  | .move i j =>
    if i = j then .ok h
    else
      let (ti, tj) := (h j).moveHelper
      .ok ((h.set j tj).set i ti)
  | .fromProto i p => do return h.set i (← (h i).fromProto r e false p).1

/-- A sequence of calls. -/
def trun {T : Type} (r : ByteRep T) (e : Env T) (h : THeap T) : List (TOp T) → Outcome (THeap T)
  | [] => .ok h
  | op :: ops => do
    let h' ← tstep r e h op
    trun r e h' ops

/-- Before any call every variable is a default-constructed tensor, tensor.ipp:65-70. -/
def THeap.init {T : Type} (e : Env T) : THeap T := fun _ => Tensor.new e []

end Verif
