import Verif.Model.Graph
/-!
# Model of copying a node
(`clone`: app/tenncor/src/graph/connector/immutable/immutable.ipp:45-49, 88-100, 197-205;
connector/immutable/base_immutable.ipp:16-20, 193-198, 238-251; connector/iconnector.ipp:236-242, 300-308;
graph/inode.ipp:130-133; react/iobserver.cpp:74-77, 163-175; react/subject.cpp:147; leaf/ileaf.ipp)

The copy constructor of an operation copies its label, its arguments (to which the copy attaches itself), its
transfer function, its data and the keys of its gradient cache, and joins the graph manager of the original.
It copies neither the audience nor `depth_`, which keeps its default `0` (iconnector.hpp), and it does not call
`update`: the copy is as up to date as the original is.

Simplifications: as in `Verif.Model.Graph`; the gradient cache and the jacobians are not in this model.
-/
namespace Verif
namespace Graph
open React (upd)

variable {V : Type}

/-- The copy constructor chain of an operation. -/
def cloneOp (d : Def V) (n : Nat) (g : G V) : G V :=
  { g with defs := g.defs ++ [d], alive := upd g.alive g.defs.length true, depth := upd g.depth g.defs.length 0, data := upd g.data g.defs.length (g.data n), leaves := upd g.leaves g.defs.length (g.leaves n), gman := upd g.gman g.defs.length (g.gman n), man := upd g.man (g.gman n) { g.man (g.gman n) with users := g.defs.length :: (g.man (g.gman n)).users } }

/-- `inode<T>::clone`, inode.ipp:17-21.  The copy of a leaf is a new leaf holding a copy of the data
(ileaf.ipp:62-72, 118-146). -/
def clone (n : Nat) (g : G V) : Outcome (G V) :=
  if g.alive n then
    match g.defs[n]? with
    | some (.op f args h) => .ok (cloneOp (.op f args h) n g)
    | _ => .ok (newLeaf (g.data n) g)
  else .ub

inductive CallC (V : Type) where
  | base (c : Call V)
  | clone (n : Nat)

def stepC (sch : Sched) : CallC V → G V → Outcome (G V)
  | .base c, g => step sch c g
  | .clone n, g => clone n g

/-- A history of calls and copies. -/
def runC : List (Sched × CallC V) → G V → Outcome (G V)
  | [], g => .ok g
  | c :: cs, g => stepC c.1 c.2 g >>= fun g => runC cs g

end Graph
end Verif
