import Verif.Model.React
/-!
# Specification of the observer network

What a client may do, and what each call is documented to do to the edges of the network.  An edge
`(x, j, t)` means that observer `x` lists subject `t` at position `j`.
-/
namespace Verif.Spec
open React

/-- The edges an observer sees. -/
def Edge (h : Net) (x j t : Nat) : Prop := (h.deps x)[j]? = some (some t)

/-- A call on live objects only, and construction at unused addresses only. -/
def Legal (h : Net) : Op → Prop
  | .newSubject s => h.sAlive s = false
  | .newObserver o ds _ => h.oAlive o = false ∧ ∀ s, some s ∈ ds → h.sAlive s = true
  | .addDependency o d => h.oAlive o = true ∧ ∀ s, d = some s → h.sAlive s = true
  | .removeDependency o _ => h.oAlive o = true
  | .replaceDependency o d _ => h.oAlive o = true ∧ ∀ s, d = some s → h.sAlive s = true
  | .steal _ s t => h.sAlive s = true ∧ h.sAlive t = true
  | .moveSubject _ s t => h.sAlive s = true ∧ h.sAlive t = true
  | .copyObserver o p => h.oAlive o = true ∧ h.oAlive p = true
  | .moveObserver o p => h.oAlive o = true ∧ h.oAlive p = true
  | .addOndeath o s => h.oAlive o = true ∧ h.sAlive s = true
  | .attachKiller s o => h.oAlive o = true ∧ h.sAlive s = true
  | .removeOndeath o s => h.oAlive o = true ∧ h.sAlive s = true
  | .detachKiller s o => h.oAlive o = true ∧ h.sAlive s = true
  | .destroySubject _ s => h.sAlive s = true
  | .destroyObserver _ o => h.oAlive o = true

/-- The edges after a call. -/
def edgesAfter (h : Net) : Op → Nat → Nat → Nat → Prop
  | .newObserver o ds _, x, j, t => (x = o ∧ ds[j]? = some (some t)) ∨ (x ≠ o ∧ Edge h x j t)
  | .addDependency o d, x, j, t => Edge h x j t ∨ (x = o ∧ j = (h.deps o).length ∧ d = some t)
  | .removeDependency o i, x, j, t => Edge h x j t ∧ ¬ (x = o ∧ j = i)
  | .replaceDependency o d i, x, j, t =>
      (x = o ∧ j = i ∧ d = some t) ∨ (¬ (x = o ∧ j = i) ∧ Edge h x j t)
  | .steal _ s from_, x, j, t => (t = s ∧ Edge h x j from_) ∨ (t ≠ from_ ∧ Edge h x j t)
  | .moveSubject _ s from_, x, j, t => (t = s ∧ Edge h x j from_) ∨ (t ≠ from_ ∧ Edge h x j t)
  | .copyObserver o p, x, j, t =>
      if o = p then Edge h x j t
      else (x = o ∧ ((h.deps p).filterMap id)[j]? = some t) ∨ (x ≠ o ∧ Edge h x j t)
  | .moveObserver o p, x, j, t =>
      if o = p then Edge h x j t
      else (x = o ∧ Edge h p j t) ∨ (x ≠ o ∧ x ≠ p ∧ Edge h x j t)
  | .destroySubject _ s, x, j, t => Edge h x j t ∧ t ≠ s
  | .destroyObserver _ o, x, j, t => Edge h x j t ∧ x ≠ o ∧ t ∉ h.ondeath o
  | _, x, j, t => Edge h x j t

/-- The (observer, subject) kill-on-death registrations after a call. -/
def regsAfter (h : Net) : Op → Nat → Nat → Prop
  | .addOndeath o s, x, t => t ∈ h.ondeath x ∨ (x = o ∧ t = s)
  | .attachKiller s o, x, t => t ∈ h.ondeath x ∨ (x = o ∧ t = s)
  | .removeOndeath o s, x, t => t ∈ h.ondeath x ∧ ¬ (x = o ∧ t = s)
  | .detachKiller s o, x, t => t ∈ h.ondeath x ∧ ¬ (x = o ∧ t = s)
  | .destroySubject _ s, x, t => t ∈ h.ondeath x ∧ t ≠ s
  | .destroyObserver _ o, x, t => t ∈ h.ondeath x ∧ t ∉ h.ondeath o
  | _, x, t => t ∈ h.ondeath x

/-- A list whose last entry is null although an earlier one is not. -/
def NullTail (l : List (Option Nat)) : Prop := l.getLast? = some none ∧ ∃ s, some s ∈ l

/-- The calls that never hand over a null pointer. -/
def NoNull : Op → Prop
  | .newObserver _ ds _ => none ∉ ds
  | .addDependency _ d => d ≠ none
  | .replaceDependency _ d _ => d ≠ none
  | _ => True

end Verif.Spec
