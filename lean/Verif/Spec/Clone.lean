import Verif.Model.Clone
import Verif.Spec.Graph
/-!
# Specification of copies

What a history with copies says, read off the list of calls alone.
-/
namespace Verif.Spec
open Graph React

variable {V : Type}

/-- A copy is one more node, defined like the original; the copy of a leaf starts with its value. -/
def tellC (t : Told V) : CallC V → Told V
  | .base c => tell t c
  | .clone n => { nodes := t.nodes ++ [t.nodes.getD n .leaf], leaf := upd t.leaf t.nodes.length (t.leaf n) }

def toldC (cs : List (CallC V)) : Told V := cs.foldl tellC { nodes := [], leaf := fun _ => none }

/-- The pairs (original, copy) of operations. -/
def tellPairs (p : Told V × List (Nat × Nat)) (c : CallC V) : Told V × List (Nat × Nat) :=
  (tellC p.1 c, match c with
    | .clone n => match p.1.nodes[n]? with
      | some (.op _ _ _) => (n, p.1.nodes.length) :: p.2
      | _ => p.2
    | .base _ => p.2)

def pairsOf (cs : List (CallC V)) : List (Nat × Nat) := (cs.foldl tellPairs ({ nodes := [], leaf := fun _ => none }, [])).2

/-- Linked by argument edges between operations and by copying, in either direction. -/
def LinkedC (cs : List (CallC V)) : Nat → Nat → Prop :=
  Relation.EqvGen (fun a b => OpArg (toldC cs).nodes a b ∨ (a, b) ∈ pairsOf cs)

def LoudC : CallC V → Prop
  | .base c => Loud c
  | .clone _ => True

/-- An update of the operation is pending. -/
def Pending (g : G V) (n : Nat) : Prop := n ∈ (g.man (g.gman n)).queue

/-- A copied operation works on leaves only. -/
def OnLeaves (g : G V) : CallC V → Prop
  | .clone n => ∀ f args h, g.defs[n]? = some (.op f args h) → ∀ a ∈ args, g.defs[a]? = some .leaf
  | .base _ => True

/-- No operation is copied while an update of it is pending. -/
def Settles (g : G V) : CallC V → Prop
  | .clone n => ¬ Pending g n
  | .base _ => True

/-- Every call of the history has the property at its time. -/
def Always (P : G V → CallC V → Prop) : List (Sched × CallC V) → G V → Prop
  | [], _ => True
  | c :: cs, g => P g c.2 ∧ ∀ g', stepC c.1 c.2 g = .ok g' → Always P cs g'

end Verif.Spec
