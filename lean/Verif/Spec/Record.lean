import Verif.Model.Record
/-! # Specification vocabulary for the edge recorder -/
namespace Verif.Spec
open Record

/-- The record contains: observer `o` has subject `s` as its `i`-th argument. -/
def Has (b : Book) (o s i : Nat) : Prop := ∃ l, b s = some l ∧ (o, i) ∈ l

/-- The history contains a capture of the edge by a recordable observer after which neither the edge nor its subject is
released. -/
def StillCaptured (evs : List Ev) (o s i : Nat) : Prop :=
  ∃ pre post, evs = pre ++ Ev.capture true o s i :: post ∧ ∀ e ∈ post, e ≠ Ev.release o s i ∧ e ≠ Ev.gone s

end Verif.Spec
