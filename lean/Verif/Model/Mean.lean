import Verif.Model.Transform
import Verif.Model.Elementary
import Mathlib.Algebra.Field.Defs
/-!
# Model of shape nodes and averages

`shape_extracter<T>` (app/tenncor/src/tensor/tensor_handler.ipp), `shape_dep<T>`
(app/tenncor/src/graph/connector/immutable/shape_dep.ipp) and `reduce_mean`
(app/tenncor/src/graph/operations/transform.ipp).  Elements are those of a field: rounding is not modelled.
-/
namespace Verif
namespace Mean
variable {T : Type}

/-- `SHAPE_EXTRACT` (include/tensor/tensor_handler.hpp): the numbers read off one shape. -/
abbrev Extract := Shape → Outcome (List Nat)

/-- `raw[base + j] = sv[j]` for each j, tensor_handler.ipp:67-70. -/
def writeRow [NatCast T] : List Nat → Nat → List T → Outcome (List T)
  | [], _, raw => .ok raw
  | v :: vs, at', raw => Outcome.write raw at' (v : T) >>= fun raw' => writeRow vs (at' + 1) raw'

/-- The rows i, i+1, …, tensor_handler.ipp:64-71: `n` of them are left. -/
def writeRows [NatCast T] (f : Extract) (ts : List Shape) (ncol : Nat) : Nat → Nat → List T → Outcome (List T)
  | 0, _, raw => .ok raw
  | n + 1, i, raw => Outcome.read ts i >>= fun s => f s >>= fun sv =>
      writeRow sv (i * ncol) raw >>= fun raw' => writeRows f ts ncol n (i + 1) raw'

/-- `std::fill(raw, raw + n, 1)`, tensor_handler.ipp:63. -/
def fillOnes [One T] (n : Nat) (raw : List T) : Outcome (List T) :=
  if n ≤ raw.length then .ok (List.replicate n 1 ++ raw.drop n) else .ub

/-- The number of rows of the output, tensor_handler.ipp:62. -/
def rowCount (shapes : Shape) : Outcome Nat := if shapes.length < 2 then .ok 1 else Outcome.read shapes 1

/-- `shape_extracter::operator()`, tensor_handler.ipp:56-73. -/
def shapeExtract [One T] [NatCast T] (f : Extract) (out : Tensor T) (ts : List Shape) : Outcome (Tensor T) := do
  let raw ← Op.getRaw out
  let shapes := out.getShape
  let ncol ← Outcome.read shapes 0
  let nrow ← rowCount shapes
  let raw ← fillOnes out.nElems raw
  let raw ← writeRows f ts ncol nrow 0 raw
  return { out with raw := some raw }

/-- One argument of a shape node, shape_dep.ipp:133-136: a null `take_eval` is dereferenced. -/
def argShape : Option (Tensor T) → Outcome Shape
  | none => .ub
  | some t => .ok t.getShape

/-- `shape_dep::forward_pass`, shape_dep.ipp:130-142; `shape` is `shape_`, which the constructor (line 90) asserts is
fully defined. -/
def shapePass [One T] [NatCast T] (e : Env T) (f : Extract) (shape : Shape) (data : Option (Tensor T))
    (args : List (Option (Tensor T))) : Outcome (Tensor T) := do
  let shapes ← Outcome.forM' args argShape
  shapeExtract f (data.getD (Tensor.new e shape)) shapes

/-- The function of the denominator of `reduce_mean`, transform.ipp:334-350. -/
def denomOf : Option Nat → Extract
  | some k => fun s => Outcome.read s k >>= fun d => .ok [d]
  | none => fun s => .ok [s.nElems]

/-- What the three nodes made by `reduce_mean` hold: the denominator, the sum and the quotient. -/
structure MeanNode (T : Type) where
  denom : Option (Tensor T)
  total : Option (Tensor T)
  quot : Option (Tensor T)

/-- `reduce_sum`, transform.ipp:321-328, as evaluated by its node. -/
def sumPass [Add T] (e : Env T) (axis : Option Nat) (data : Option (Tensor T)) (a : Tensor T) : Outcome (Tensor T) :=
  match axis with
  | some k => Op.forwardPass e (Transform.compressShaper k) (Transform.compressKernel (· + ·) k) data [some a]
  | none => Op.forwardPass e Transform.compressAllShaper (Transform.compressAllKernel (· + ·)) data [some a]

/-- The nodes of `reduce_mean(a, axis)` taking the value `a`, transform.ipp:330-352: at the construction, and each time
the argument changes.  The order in which the first two are told is that of the construction. -/
def feed [Field T] (e : Env T) (axis : Option Nat) (m : MeanNode T) (a : Tensor T) : Outcome (MeanNode T) := do
  let d ← shapePass e (denomOf axis) [1] m.denom [some a]
  let s ← sumPass e axis m.total a
  let q ← Op.forwardPass e Elementary.elementaryShaper (Elementary.binaryElem (· / ·)) m.quot [some s, some d]
  return ⟨some d, some s, some q⟩

/-- A whole history of values of the argument. -/
def feeds [Field T] (e : Env T) (axis : Option Nat) : MeanNode T → List (Tensor T) → Outcome (MeanNode T)
  | m, [] => .ok m
  | m, a :: as => feed e axis m a >>= fun m' => feeds e axis m' as

/-- Nodes that have not been evaluated. -/
def fresh : MeanNode T := ⟨none, none, none⟩

end Mean
end Verif
