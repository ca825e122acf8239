import Verif.Model.Graph
/-!
# Model of the computation graph when calls throw and the caller catches
(the same code as Verif.Model.Graph: iconnector.ipp, base_immutable.ipp, immutable.ipp, ileaf.ipp)

`Outcome` forgets the state an exception leaves behind; here it is kept, so that a history can go on after a `catch`.
Apart from that the functions are those of Verif.Model.Graph, and `erase` maps one to the other.

Simplification: an exception leaves the data of the failing operation as it was. So it is for everything thrown by a shape
function or by the shape check of immutable.ipp:126-165; a transfer function that throws half way (only `binary_axial` can,
elementary.ipp:151) may have written a part of the buffer.
-/
namespace Verif
namespace Graph
open React (upd)

variable {V : Type}

/-- How a call ends: it returns, it throws, or it does neither. -/
inductive Res (σ : Type) where
  | done (s : σ)
  | thrown (e : Exc) (s : σ)
  | abort
  | ub

namespace Res

/-- Sequencing: an exception leaves the rest out. -/
def andThen {σ : Type} : Res σ → (σ → Res σ) → Res σ
  | .done s, k => k s
  | .thrown e s, _ => .thrown e s
  | .abort, _ => .abort
  | .ub, _ => .ub

/-- Forget the state an exception leaves. -/
def erase {σ : Type} : Res σ → Outcome σ
  | .done s => .ok s
  | .thrown e _ => .throw e
  | .abort => .abort
  | .ub => .ub

end Res

/-- A loop over observers. -/
def forEachR {α σ : Type} (body : α → σ → Res σ) : List α → σ → Res σ
  | [], s => .done s
  | x :: xs, s => (body x s).andThen (forEachR body xs)

/-- `immutable<T>::forward_pass`, immutable.ipp:125-173. -/
def forwardR (n : Nat) (g : G V) : Res (G V) :=
  match g.defs[n]? with
  | some (.op f args _) =>
    match args.mapM g.data with
    | some vs =>
      match f vs with
      | .ok v => .done { g with data := upd g.data n (some v) }
      | .throw e => .thrown e g
      | .abort => .abort
      | .ub => .ub
    | none => .thrown .other g
  | _ => .ub

/-- `base_immutable<T>::update`, base_immutable.ipp:134-175. -/
def updateR (rec : Nat → G V → Res (G V)) (n : Nat) (g : G V) : Res (G V) :=
  if (argsOf g n).all (good g) then
    if (g.man (g.gman n)).freeze || decide (1 < (argsOf g n).length) then .done (addUpdate n g)
    else (forwardR n g).andThen (rec n)
  else .done g

/-- `subject::notify(UPDATE)`, subject.cpp:63-90: an observer that throws keeps the later ones from being told. -/
def notifyR (sch : Sched) : Nat → Nat → G V → Res (G V)
  | 0, _, _ => .abort
  | fuel + 1, n, g => forEachR (updateR (notifyR sch fuel)) (sch.aud n (audience g n)) g

/-- One iteration of `graph_manager::update`, iconnector.ipp:418-423: the node is popped before its forward pass, and
stays in `update_map_`. -/
def drainOneR (sch : Sched) (m x : Nat) (g : G V) : Res (G V) :=
  if g.alive x then
    (forwardR x { g with man := upd g.man m { g.man m with queue := (g.man m).queue.erase x } }).andThen fun g =>
      notifyR sch (g.defs.length + 1) x g
  else .ub

/-- `graph_manager::update`, iconnector.ipp:414-426: an exception skips `update_map_.clear()`. -/
def drainR (sch : Sched) (m : Nat) : Nat → G V → Res (G V)
  | fuel, g =>
    match top g.depth (sch.pop fuel (g.man m).queue) with
    | none => .done { g with man := upd g.man m { g.man m with map := [] } }
    | some x =>
      match fuel with
      | 0 => .abort
      | fuel + 1 => (drainOneR sch m x g).andThen fun g => drainR sch m fuel g

def managerUpdateR (sch : Sched) (m : Nat) (g : G V) : Res (G V) := drainR sch m (g.defs.length + 1) g

/-- `iconnector<T>::eval`, iconnector.ipp:120-128, and `ileaf<T>::eval`, ileaf.ipp:74-78; the value returned is the
node's data afterwards. -/
def evalR (sch : Sched) (n : Nat) (g : G V) : Res (G V) :=
  if g.alive n then
    if isOp g n && !(g.man (g.gman n)).freeze then managerUpdateR sch (g.gman n) g else .done g
  else .ub

/-- `base_immutable<T>::get_shape`, base_immutable.ipp:98-107. -/
def getShapeR (sch : Sched) (n : Nat) (g : G V) : Res (G V) :=
  if g.alive n then
    if isOp g n then managerUpdateR sch (g.gman n) g else .done g
  else .ub

/-- `iconnector<T>::freeze_status`, iconnector.ipp:172-181. -/
def freezeStatusR (sch : Sched) (n : Nat) (b : Bool) (g : G V) : Res (G V) :=
  if g.alive n && isOp g n then
    (if b then managerUpdateR sch (g.gman n) g else .done g).andThen fun g => .done (setFreeze (g.gman n) b g)
  else .ub

/-- Initialising or assigning a leaf; the data are stored before the notification. -/
def assignR (sch : Sched) (n : Nat) (v : V) (ntf : Bool) (g : G V) : Res (G V) :=
  if g.alive n && !isOp g n then
    if ntf then notifyR sch (g.defs.length + 1) n { g with data := upd g.data n (some v) }
    else .done { g with data := upd g.data n (some v) }
  else .ub

/-- An exception that leaves a constructor: the bases are destroyed again (`~base_immutable`, `~iconnector`, `~iobserver`),
which detaches the node.  Only an operation of one argument computes inside its constructor, so no two graphs were joined
(`c71_construct_throws_iff`). -/
def unwind (g : G V) : Res (G V) → Res (G V)
  | .thrown e _ => .thrown e g
  | r => r

/-- `immutable<T>::get`, immutable.ipp:22-43, 82-87; `update` runs inside the constructor. -/
def newOpR (sch : Sched) (f : List V → Outcome V) (args : List Nat) (hides : Bool) (g : G V) : Res (G V) :=
  if args = [] then .abort
  else if args.all g.alive then
    unwind g (updateR (notifyR sch (g.defs.length + 2)) g.defs.length (construct f args hides g))
  else .ub

/-- `delete node`; nothing in it throws. -/
def deleteR (n : Nat) (g : G V) : Res (G V) :=
  if g.alive n then
    .done { g with alive := fun k => g.alive k && decide (k ∉ killed g n), man := fun m => { g.man m with users := (g.man m).users.filter (fun k => k ∉ killed g n) } }
  else .ub

def stepR (sch : Sched) : Call V → G V → Res (G V)
  | .newLeaf v, g => .done (newLeaf v g)
  | .newOp f args h, g => newOpR sch f args h g
  | .assign n v b, g => assignR sch n v b g
  | .eval n, g => evalR sch n g
  | .getShape n, g => getShapeR sch n g
  | .freeze n b, g => freezeStatusR sch n b g
  | .delete n, g => deleteR n g

/-- A history whose caller catches every exception; `none` when some call neither returned nor threw. -/
def runR : List (Sched × Call V) → G V → Option (G V)
  | [], g => some g
  | c :: cs, g =>
    match stepR c.1 c.2 g with
    | .done g => runR cs g
    | .thrown _ g => runR cs g
    | .abort => none
    | .ub => none

end Graph
end Verif
