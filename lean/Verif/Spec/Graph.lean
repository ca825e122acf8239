import Verif.Model.Graph
import Mathlib.Logic.Relation
/-!
# Specification of the computation graph

What the calls of a history say, read off the list of calls alone.
-/
namespace Verif.Spec
open Graph React

variable {V : Type}

/-- What a history has told so far: the nodes in order of construction, and the value last given to each
leaf. -/
structure Told (V : Type) where
  nodes : List (Def V)
  leaf : Nat → Option V

def tell (t : Told V) : Call V → Told V
  | .newLeaf v => { nodes := t.nodes ++ [.leaf], leaf := upd t.leaf t.nodes.length v }
  | .newOp f args h => { nodes := t.nodes ++ [.op f args h], leaf := t.leaf }
  | .assign n v _ => { nodes := t.nodes, leaf := upd t.leaf n (some v) }
  | _ => t

def told (cs : List (Call V)) : Told V := cs.foldl tell { nodes := [], leaf := fun _ => none }

/-- `v` is the value of the expression at node `n` for the given leaf values. -/
inductive Computes (nodes : List (Def V)) (leaf : Nat → Option V) : Nat → V → Prop where
  | leaf {n : Nat} {v : V} : nodes[n]? = some .leaf → leaf n = some v → Computes nodes leaf n v
  | op {n : Nat} {f : List V → Outcome V} {args : List Nat} {h : Bool} {vs : List V} {v : V} :
      nodes[n]? = some (.op f args h) → args.length = vs.length →
      (∀ (i a : Nat) (w : V), args[i]? = some a → vs[i]? = some w → Computes nodes leaf a w) →
      f vs = .ok v → Computes nodes leaf n v

/-- The leaf `l` is reachable from `n` through arguments, not passing through a `const_immutable`. -/
inductive DependsOn (nodes : List (Def V)) : Nat → Nat → Prop where
  | leaf {n : Nat} : nodes[n]? = some .leaf → DependsOn nodes n n
  | op {n a l : Nat} {f : List V → Outcome V} {args : List Nat} :
      nodes[n]? = some (.op f args false) → a ∈ args → DependsOn nodes a l → DependsOn nodes n l

/-- Operation `a` is an argument of operation `b`. -/
def OpArg (nodes : List (Def V)) (a b : Nat) : Prop :=
  (∃ f args h, nodes[a]? = some (.op f args h)) ∧ ∃ f args h, nodes[b]? = some (.op f args h) ∧ a ∈ args

/-- Linked by argument edges between operations, in either direction. -/
def Linked (nodes : List (Def V)) : Nat → Nat → Prop := Relation.EqvGen (OpArg nodes)

/-- Assignments that notify. -/
def Loud : Call V → Prop
  | .assign _ _ ntf => ntf = true
  | _ => True

/-- The graph of operation `n` has been frozen. -/
def Frozen (g : G V) (n : Nat) : Prop :=
  (∃ f args h, g.defs[n]? = some (.op f args h)) ∧ (g.man (g.gman n)).freeze = true

/-- Calls that leave the graph of the operation `k` alone: leaf creation and assignment, evaluation of
anything, shape queries and freezing of other graphs, destruction of nodes `k` does not depend on, and
new operations unless they join the graph of `k` to that of an earlier operation argument. -/
def Undisturbing (g : G V) (k : Nat) : Call V → Prop
  | .newLeaf _ => True
  | .newOp _ args _ =>
      (∀ a ∈ args, isOp g a = true → isSameGraph g a k = false) ∨
      ∃ c, (args.filter (isOp g)).head? = some c ∧ isSameGraph g c k = true
  | .assign _ _ _ => True
  | .eval _ => True
  | .getShape n => isOp g n = true → isSameGraph g n k = false
  | .freeze n _ => isSameGraph g n k = false
  | .delete n => ∀ g', Graph.delete n g = .ok g' → g'.alive k = true

/-- Every call of the history leaves the graph of `k` alone at its time. -/
def UndisturbedRun (k : Nat) : List (Sched × Call V) → G V → Prop
  | [], _ => True
  | c :: cs, g => Undisturbing g k c.2 ∧ ∀ g', step c.1 c.2 g = .ok g' → UndisturbedRun k cs g'

/-- Everything except destroying a node. -/
def NoDelete : Call V → Prop
  | .delete _ => False
  | _ => True

/-- Calls that name existing nodes of the right kind, and operations whose transfer function cannot throw. -/
def Sensible (t : Told V) : Call V → Prop
  | .newLeaf _ => True
  | .newOp f args _ => args ≠ [] ∧ (∀ a ∈ args, a < t.nodes.length) ∧ ∀ vs, ∃ v, f vs = .ok v
  | .assign n _ _ => t.nodes[n]? = some .leaf
  | .eval n => n < t.nodes.length
  | .getShape n => n < t.nodes.length
  | .freeze n _ => ∃ f args h, t.nodes[n]? = some (.op f args h)
  | .delete _ => False

/-- Every call of the history is sensible at its time. -/
def AllSensible : List (Call V) → Prop
  | cs => ∀ pre c post, cs = pre ++ c :: post → Sensible (told pre) c

end Verif.Spec
