import Verif.Model.React
import Verif.Model.Cache
/-!
# Model of the recorder that serves visualisation clients
(app/tenncor/src/edgeinfo/grpc_vis_record.cpp, app/tenncor/src/edgeinfo/grpc_vis/gui_notifier.cpp:18-57)

A graph whose recorder is an `rpc_record` (`Model/React`, `Model/Cache`), and the calls of `get_latest` that the streams of
its clients make.  What a stream is given it writes to its client.  When a stream waits, and when it ends, is in
`Model/Notify`.  A client's node stream and edge stream are numbered separately.
-/
namespace Verif
namespace Rpc
open React (Net)
open Record (Ev)
open Cache (Cache)

/-- `EdgeMessage`, proto/grpc/grpc_gui.proto; `added` is the status ADD, otherwise REMOVE. -/
structure EdgeMsg where
  obs : List Char
  sub : List Char
  idx : Nat
  added : Bool
  deriving DecidableEq

/-- `NodeMessage`, proto/grpc/grpc_gui.proto; `removed` is the status REMOVE, otherwise UPDATE. -/
structure NodeMsg where
  id : List Char
  removed : Bool
  deriving DecidableEq

/-- `get_uid` of subjects and of observers. -/
structure Uids where
  sub : Nat → List Char
  obs : Nat → List Char

/-- The keys of the two caches, grpc_vis_record.cpp:21-30. -/
def nodeKey (m : NodeMsg) : List Char := m.id
def edgeKey (m : EdgeMsg) : List Char := Nat.toDigits 10 m.idx ++ ':' :: (m.obs ++ ':' :: m.sub)

/-- `edge_capture`, `edge_release`, grpc_vis_record.cpp:66-94.  `recordable_` is not looked at. -/
def edgeMsg (u : Uids) : Ev → Option EdgeMsg
  | .capture _ o s i => some ⟨u.obs o, u.sub s, i, true⟩
  | .release o s i => some ⟨u.obs o, u.sub s, i, false⟩
  | .gone _ => none

/-- `node_release`, grpc_vis_record.cpp:42-51. -/
def nodeMsg (u : Uids) : Ev → Option NodeMsg
  | .gone s => some ⟨u.sub s, true⟩
  | _ => none

/-- A cache, the iterators of the streams reading it, and what was written to whom, oldest first. -/
structure Chan (T : Type) where
  cache : Cache (List Char) T
  iter : Nat → Option Nat
  out : List (Nat × T)

def Chan.new {T : Type} : Chan T := ⟨Cache.new, fun _ => none, []⟩

/-- Additions to the cache. -/
def Chan.feed {T : Type} (key : T → List Char) (ms : List T) (c : Chan T) : Outcome (Chan T) :=
  c.cache.addAll key ms >>= fun c' => .ok { c with cache := c' }

/-- One turn of the loop of `SubscribeNode` and `SubscribeEdge`, gui_notifier.cpp:30-35, 48-53. -/
def Chan.get {T : Type} (k : Nat) (c : Chan T) : Outcome (Chan T) :=
  c.cache.get (c.iter k) >>= fun x => .ok ⟨c.cache, fun j => if j = k then x.1 else c.iter j, c.out ++ x.2.toList.map fun v => (k, v)⟩

structure Srv where
  net : Net
  nodes : Chan NodeMsg
  edges : Chan EdgeMsg

inductive Act where
  /-- a change of the graph -/
  | op (o : React.Op)
  /-- a subject notifies its audience of an update, subject.cpp:63-75 (`data_update`, grpc_vis_record.cpp:53-64) -/
  | update (s : Nat)
  | nodeGet (k : Nat)
  | edgeGet (k : Nat)

/-- The messages of what the recorder was told since. -/
def told (u : Uids) (evs : List Ev) (net : Net) (S : Srv) : Outcome Srv :=
  S.nodes.feed nodeKey (evs.filterMap (nodeMsg u)) >>= fun n =>
  S.edges.feed edgeKey (evs.filterMap (edgeMsg u)) >>= fun e => .ok ⟨net, n, e⟩

/-- A call; one that throws leaves everything as it is (see `React.run`). -/
def step (u : Uids) (a : Act) (S : Srv) : Outcome Srv :=
  match a with
  | .op o =>
    match React.step o S.net with
    | .ok net => told u (net.book.log.drop S.net.book.log.length) net S
    | .throw _ => .ok S
    | .abort => .abort
    | .ub => .ub
  | .update s => React.needS s S.net >>= fun _ => S.nodes.feed nodeKey [⟨u.sub s, false⟩] >>= fun n => .ok { S with nodes := n }
  | .nodeGet k => S.nodes.get k >>= fun n => .ok { S with nodes := n }
  | .edgeGet k => S.edges.get k >>= fun e => .ok { S with edges := e }

def run (u : Uids) : List Act → Srv → Outcome Srv
  | [], S => .ok S
  | a :: as, S => step u a S >>= fun S' => run u as S'

def Srv.init : Srv := ⟨Net.empty, Chan.new, Chan.new⟩

end Rpc
end Verif
