import Verif.Model.React
import Mathlib.Data.List.Dedup
/-!
# Model of the computation graph
(app/tenncor/src/graph/connector/iconnector.ipp, connector/immutable/base_immutable.ipp,
connector/immutable/immutable.ipp, connector/immutable/const_immutable.ipp, leaf/ileaf.ipp)

Nodes are numbered in the order of their construction.  `V` is the type of tensor values.  A leaf is any
`ileaf` (variable, placeholder, constant); an operation is any `base_immutable` with its transfer function
`f` (which may throw, for instance on a shape mismatch).  `none` as data is a null `data_` or a leaf with
`is_init_ == false`.

Simplifications.  The buffer of an operation is replaced by the new value (`forward_pass` in fact keeps a
previous buffer of compatible shape, immutable.ipp:147-169).  The observer links are the argument lists
(C26 proves that audience and dependencies mirror each other); constants that destroy themselves when
they lose their last observer are not modelled.  Hash container iteration orders are parameters (`Sched`).
-/
namespace Verif
namespace Graph
open React (upd forEach)

/-- How a node was constructed; `hides` is true for `const_immutable` only. -/
inductive Def (V : Type) where
  | leaf
  | op (f : List V → Outcome V) (args : List Nat) (hides : Bool)

def Def.args {V : Type} : Def V → List Nat
  | .leaf => []
  | .op _ as _ => as

def Def.isOp {V : Type} : Def V → Bool
  | .leaf => false
  | .op _ _ _ => true

/-- `iconnector<T>::graph_manager`, iconnector.ipp:358-442. -/
structure Man where
  /-- `updates_` (a priority queue) -/
  queue : List Nat := []
  /-- the keys of `update_map_` -/
  map : List Nat := []
  /-- `freeze_` -/
  freeze : Bool := false
  /-- `users_` -/
  users : List Nat := []

structure G (V : Type) where
  defs : List (Def V)
  alive : Nat → Bool
  /-- `depth_` (leaves have depth 0, ileaf.ipp:56-60) -/
  depth : Nat → Nat
  data : Nat → Option V
  /-- `g_man_` -/
  gman : Nat → Nat
  man : Nat → Man
  /-- the keys of `gcache_`, as returned by `get_leaves` -/
  leaves : Nat → List Nat

def G.empty {V : Type} : G V :=
  { defs := [], alive := fun _ => false, depth := fun _ => 0, data := fun _ => none, gman := id,
    man := fun _ => {}, leaves := fun _ => [] }

variable {V : Type}

def argsOf (g : G V) (n : Nat) : List Nat := ((g.defs[n]?).map Def.args).getD []
def isOp (g : G V) (n : Nat) : Bool := ((g.defs[n]?).map Def.isOp).getD false

/-- Iteration order of an audience, and the order in which the priority queue offers elements of equal
depth (the number counts the iterations left). -/
structure Sched where
  aud : Nat → List Nat → List Nat
  pop : Nat → List Nat → List Nat
  aud_perm : ∀ n l, (aud n l).Perm l
  pop_perm : ∀ n l, (pop n l).Perm l

/-- The keys of `audience_` of `n`: the live operations that have it as an argument. -/
def audience (g : G V) (n : Nat) : List Nat :=
  (List.range g.defs.length).filter (fun k => g.alive k && decide (n ∈ argsOf g k))

/-- `good_status`, base_immutable.ipp:121-124, ileaf.ipp:96-99. -/
def good (g : G V) (n : Nat) : Bool := (g.data n).isSome

/-- `immutable<T>::forward_pass`, immutable.ipp:125-173: throws `std::exception` when an argument is null. -/
def forward (n : Nat) (g : G V) : Outcome (G V) :=
  match g.defs[n]? with
  | some (.op f args _) =>
    match args.mapM g.data with
    | some vs => f vs >>= fun v => .ok { g with data := upd g.data n (some v) }
    | none => .throw .other
  | _ => .ub

/-- `graph_manager::add_update`, iconnector.ipp:404-412. -/
def addUpdate (n : Nat) (g : G V) : G V :=
  if n ∈ (g.man (g.gman n)).map then g
  else { g with man := upd g.man (g.gman n) { g.man (g.gman n) with queue := n :: (g.man (g.gman n)).queue, map := n :: (g.man (g.gman n)).map } }

/-- `base_immutable<T>::update`, base_immutable.ipp:134-175; `rec` is `notify(UPDATE)`. -/
def updateWith (rec : Nat → G V → Outcome (G V)) (n : Nat) (g : G V) : Outcome (G V) :=
  if (argsOf g n).all (good g) then
    if (g.man (g.gman n)).freeze || decide (1 < (argsOf g n).length) then .ok (addUpdate n g)
    else forward n g >>= fun g => rec n g
  else .ok g

/-- `subject::notify(UPDATE)`, subject.cpp:63-90.  The first argument bounds the recursion depth. -/
def notify (sch : Sched) : Nat → Nat → G V → Outcome (G V)
  | 0, _, _ => .abort
  | fuel + 1, n, g => forEach (updateWith (notify sch fuel)) (sch.aud n (audience g n)) g

/-- `updates_.top()`: the first element, in the given order, of least depth (`small_leafset`,
iconnector.ipp:348-355). -/
def top (depth : Nat → Nat) (l : List Nat) : Option Nat :=
  l.find? (fun x => l.all (fun y => decide (depth x ≤ depth y)))

/-- One iteration of `graph_manager::update`: pop `x`, run its forward pass, notify. -/
def drainOne (sch : Sched) (m x : Nat) (g : G V) : Outcome (G V) :=
  if g.alive x then
    forward x { g with man := upd g.man m { g.man m with queue := (g.man m).queue.erase x } } >>= fun g =>
      notify sch (g.defs.length + 1) x g
  else .ub

/-- `graph_manager::update`, iconnector.ipp:414-426.  A queued node that was destroyed meanwhile is a
dangling pointer. -/
def drain (sch : Sched) (m : Nat) : Nat → G V → Outcome (G V)
  | fuel, g =>
    match top g.depth (sch.pop fuel (g.man m).queue) with
    | none => .ok { g with man := upd g.man m { g.man m with map := [] } }
    | some x =>
      match fuel with
      | 0 => .abort
      | fuel + 1 => drainOne sch m x g >>= fun g => drain sch m fuel g

def managerUpdate (sch : Sched) (m : Nat) (g : G V) : Outcome (G V) :=
  drain sch m (g.defs.length + 1) g

/-- `iconnector<T>::eval`, iconnector.ipp:120-128, and `ileaf<T>::eval`, ileaf.ipp:74-78. -/
def eval (sch : Sched) (n : Nat) (g : G V) : Outcome (Option V × G V) :=
  if g.alive n then
    if isOp g n && !(g.man (g.gman n)).freeze then
      managerUpdate sch (g.gman n) g >>= fun g => .ok (g.data n, g)
    else .ok (g.data n, g)
  else .ub

/-- `base_immutable<T>::get_shape`, base_immutable.ipp:98-107 (only its effect on the graph). -/
def getShape (sch : Sched) (n : Nat) (g : G V) : Outcome (G V) :=
  if g.alive n then
    if isOp g n then managerUpdate sch (g.gman n) g else .ok g
  else .ub

def setFreeze (m : Nat) (b : Bool) (g : G V) : G V :=
  { g with man := upd g.man m { g.man m with freeze := b } }

/-- `iconnector<T>::freeze_status`, iconnector.ipp:172-181. -/
def freezeStatus (sch : Sched) (n : Nat) (b : Bool) (g : G V) : Outcome (G V) :=
  if g.alive n && isOp g n then
    (if b then managerUpdate sch (g.gman n) g else .ok g) >>= fun g => .ok (setFreeze (g.gman n) b g)
  else .ub

/-- Initialising or assigning a leaf (`placeholder::operator=`, `variable::initialize`,
`variable::assign`), with or without `notify(UPDATE)`. -/
def assign (sch : Sched) (n : Nat) (v : V) (ntf : Bool) (g : G V) : Outcome (G V) :=
  if g.alive n && !isOp g n then
    if ntf then notify sch (g.defs.length + 1) n { g with data := upd g.data n (some v) }
    else .ok { g with data := upd g.data n (some v) }
  else .ub

def newLeaf (v : Option V) (g : G V) : G V :=
  { g with defs := g.defs ++ [.leaf], alive := upd g.alive g.defs.length true, depth := upd g.depth g.defs.length 0, data := upd g.data g.defs.length v, leaves := upd g.leaves g.defs.length [g.defs.length] }

/-- `graph_manager::consume`, iconnector.ipp:386-402: `m` takes over the queue, the map and the users of
`o`; `freeze_` of `o` is not looked at. -/
def consume (m o : Nat) (g : G V) : G V :=
  if m = o then g
  else { g with gman := fun x => if x ∈ (g.man o).users then m else g.gman x, man := upd (upd g.man m { g.man m with queue := (g.man o).queue ++ (g.man m).queue, map := (g.man o).map ++ (g.man m).map, users := (g.man o).users ++ (g.man m).users }) o {} }

/-- `iconnector<T>::update_graph`, iconnector.ipp:254-269; `n` is under construction.  A fresh manager is
numbered by the node that creates it. -/
def updateGraph (n : Nat) (conns : List Nat) (g : G V) : G V :=
  match conns with
  | [] => { g with gman := upd g.gman n n, man := upd g.man n { users := [n] } }
  | c :: cs =>
    cs.foldl (fun g a => consume (g.gman n) (g.gman a) g)
      { g with gman := upd g.gman n (g.gman c), man := upd g.man (g.gman c) { g.man (g.gman c) with users := n :: (g.man (g.gman c)).users } }

/-- The constructor chain up to `base_immutable<T>::base_immutable`: iconnector.ipp:184-234 (depth,
graph union) and base_immutable.ipp:177-191 (leaf set). -/
def construct (f : List V → Outcome V) (args : List Nat) (hides : Bool) (g : G V) : G V :=
  updateGraph g.defs.length (args.filter (isOp g))
    { g with defs := g.defs ++ [.op f args hides], alive := upd g.alive g.defs.length true, depth := upd g.depth g.defs.length ((args.map g.depth).foldl max 0 + 1), data := upd g.data g.defs.length none, leaves := upd g.leaves g.defs.length (if hides then [] else (args.flatMap g.leaves).dedup) }

/-- `immutable<T>::get`, immutable.ipp:22-43, 82-87: construct, then `update({})`. -/
def newOp (sch : Sched) (f : List V → Outcome V) (args : List Nat) (hides : Bool) (g : G V) :
    Outcome (G V) :=
  if args = [] then .abort
  else if args.all g.alive then
    updateWith (notify sch (g.defs.length + 2)) g.defs.length (construct f args hides g)
  else .ub

/-- The nodes destroyed with `n`: every operation above it (`death_on_broken` is `delete this`,
base_immutable.ipp:204-208). -/
def killed (g : G V) (n : Nat) : List Nat :=
  (List.range g.defs.length).foldl
    (fun acc k => if k = n ∨ ∃ a ∈ argsOf g k, a ∈ acc then k :: acc else acc) []

/-- `delete node`.  `~iconnector` leaves the manager's users (iconnector.ipp:30-34, 380-384) but not its
queue. -/
def delete (n : Nat) (g : G V) : Outcome (G V) :=
  if g.alive n then
    .ok { g with alive := fun k => g.alive k && decide (k ∉ killed g n), man := fun m => { g.man m with users := (g.man m).users.filter (fun k => k ∉ killed g n) } }
  else .ub

/-- `iconnector<T>::is_same_graph`, iconnector.ipp:130-134. -/
def isSameGraph (g : G V) (a b : Nat) : Bool := g.gman a == g.gman b

inductive Call (V : Type) where
  | newLeaf (v : Option V)
  | newOp (f : List V → Outcome V) (args : List Nat) (hides : Bool)
  | assign (n : Nat) (v : V) (ntf : Bool)
  | eval (n : Nat)
  | getShape (n : Nat)
  | freeze (n : Nat) (b : Bool)
  | delete (n : Nat)

def step (sch : Sched) : Call V → G V → Outcome (G V)
  | .newLeaf v, g => .ok (newLeaf v g)
  | .newOp f args h, g => newOp sch f args h g
  | .assign n v b, g => assign sch n v b g
  | .eval n, g => eval sch n g >>= fun r => .ok r.2
  | .getShape n, g => getShape sch n g
  | .freeze n b, g => freezeStatus sch n b g
  | .delete n, g => delete n g

/-- A history; every call has its own hash orders. -/
def run : List (Sched × Call V) → G V → Outcome (G V)
  | [], g => .ok g
  | c :: cs, g => step c.1 c.2 g >>= fun g => run cs g

end Graph
end Verif
