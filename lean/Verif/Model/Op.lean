import Verif.Model.Tensor
/-!
# Model of a forward pass of an operation node

`transfer_func<T>` (app/tenncor/src/tensor/tensor_handler.ipp) and `immutable<T>::forward_pass`
(app/tenncor/src/graph/connector/immutable/immutable.ipp).
-/
namespace Verif

/-- `TRANSFER_FUNC<T>` (include/tensor/tensor_handler.hpp): destination buffer, source buffers,
`shape_io` (output shape, input shapes). -/
abbrev TransferFunc (T : Type) := List T → List (List T) → Shape → List Shape → Outcome (List T)

/-- `SHAPER` (include/tensor/tensor_handler.hpp). -/
abbrev Shaper := List Shape → Outcome Shape

namespace Op
variable {T : Type}

/-- `itensor_handler::get_raw`, tensor_handler.ipp:29-40. -/
def getRaw (t : Tensor T) : Outcome (List T) := do
  Outcome.assert t.isAlloc
  match t.raw with
  | some buf => .ok buf
  | none => .ub

/-- `transfer_func::operator()`, tensor_handler.ipp:159-173. -/
def transfer (f : TransferFunc T) (out : Tensor T) (args : List (Tensor T)) : Outcome (Tensor T) := do
  let dest ← getRaw out
  let srcs ← Outcome.forM' args getRaw
  let dest' ← f dest srcs out.getShape (args.map Tensor.getShape)
  return { out with raw := some dest' }

/-- One argument of a forward pass, immutable.ipp:134-141; `none` is a null `take_eval`. -/
def takeArg : Option (Tensor T) → Outcome (Tensor T)
  | none => .throw .other
  | some t => Outcome.assert t.isAlloc >>= fun _ => .ok t

/-- Shape check and allocation of the output, immutable.ipp:145-170; `data` is `data_`. -/
def prepareOut (e : Env T) (data : Option (Tensor T)) (s : Shape) : Outcome (Tensor T) :=
  match data with
  | none => Outcome.assert s.isFullyDefined >>= fun _ => .ok (Tensor.new e s)
  | some d =>
    if s.isFullyDefined then
      if d.isAlloc then
        if !s.isCompatibleWith d.getShape then .throw .runtimeError else .ok d
      else d.allocateShape e s >>= fun r => .ok r.1
    else .ok d

/-- `immutable::forward_pass`, immutable.ipp:126-173. -/
def forwardPass (e : Env T) (shaper : Shaper) (f : TransferFunc T) (data : Option (Tensor T))
    (args : List (Option (Tensor T))) : Outcome (Tensor T) := do
  let tens ← Outcome.forM' args takeArg
  let s ← shaper (tens.map Tensor.getShape)
  let d ← prepareOut e data s
  transfer f d tens

end Op
end Verif
