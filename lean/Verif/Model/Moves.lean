import Verif.Model.Nets
/-!
# Model of moving networks, and of histories of networks
(app/rocnnet/src/layers/{ilayer,fc_layer}.cpp, src/compounds/mlp.cpp, src/models/{rbm,db_net,dq_net}.cpp,
app/tenncor/src/graph/leaf/{ileaf,ivariable,variable}.ipp)

What is left in a moved-from `std::string` is unspecified: `rest s` for a string `s`.  A moved-from `std::vector` is
empty.
-/
namespace Verif.Nets
open Verif

variable {T : Type}

/-- What a moved-from perceptron is: the sizes stay, the scope is a moved-from string, the layers are gone.
ilayer.cpp:58-59, mlp.cpp:132-137. -/
def mlpLeft (rest : List Char → List Char) (a : MLP) : MLP := ⟨rest a.scope, a.nIn, a.nOut, []⟩

/-- `mlp::move` (mlp.cpp:42-45, 103-107, 114-117, 132-137): the new perceptron and what is left of the old one. -/
def mlpMove (rest : List Char → List Char) (a : MLP) : MLP × MLP := (⟨a.scope, a.nIn, a.nOut, a.layers⟩, mlpLeft rest a)

/-- `mlp::operator = (mlp&&)` between different objects, mlp.cpp:58-67: the own layers are deleted first. -/
def mlpMoveAssign (rest : List Char → List Char) (this other : MLP) (m : Mem T) : Outcome (MLP × MLP × Mem T) :=
  Mem.deleteAll this.vars m >>= fun m' => .ok ((mlpMove rest other).1, (mlpMove rest other).2, m')

/-- `mlp::~mlp`, mlp.cpp:32-35, 139-146; fc_layer.cpp:33-36, 135-143. -/
def mlpDelete (a : MLP) (m : Mem T) : Outcome (Mem T) := Mem.deleteAll a.vars m

/-! ### Histories of perceptrons

The program holds networks under numbers, given in the order in which networks are made. -/

structure World (T : Type) where
  mem : Mem T
  made : Nat
  net : Nat → Option MLP

/-- A program that has made no network yet. -/
def World.start : World T := ⟨⟨0, fun _ => none⟩, 0, fun _ => none⟩

inductive Step (T : Type) where
  /-- `new mlp(nIn, hiddens, scope)` -/
  | new (nIn : Nat) (hiddens : List (Nat × Nat)) (scope : List Char)
  /-- `nets[i]->clone(scope)` -/
  | clone (i : Nat) (scope : List Char)
  /-- `*nets[i] = *nets[j]` -/
  | assign (i j : Nat)
  /-- `nets[i]->move()` -/
  | move (i : Nat)
  /-- `*nets[i] = std::move(*nets[j])` -/
  | moveAssign (i j : Nat)
  /-- `delete nets[i]` -/
  | delete (i : Nat)
  /-- Any change of parameter `k` of `nets[i]`, found by `get_variables()`, by initialisation, assignment or training;
  its result is `l`. -/
  | put (i k : Nat) (l : Leaf T)

/-- Using network `i`: undefined once it is deleted, or when there never was one. -/
def World.use (w : World T) (i : Nat) : Outcome MLP :=
  match w.net i with
  | some a => .ok a
  | none => .ub

def World.setNet (w : World T) (i : Nat) (o : Option MLP) : World T := { w with net := fun k => if k = i then o else w.net k }

/-- A new object. -/
def World.add (w : World T) (a : MLP) (m : Mem T) : World T := ⟨m, w.made + 1, fun k => if k = w.made then some a else w.net k⟩

/-- A vector accessed beyond its end. -/
def nth (xs : List Nat) (k : Nat) : Outcome Nat :=
  match xs[k]? with
  | some x => .ok x
  | none => .ub

/-- One step of a program.  mlp.cpp:16-67, 87-146; fc_layer.cpp:16-31, 84-143. -/
def World.step (e : Env T) (winit : Nat → Nat → T) (rest : List Char → List Char) (w : World T) : Step T → Outcome (World T)
  | .new nIn hiddens scope => .ok (w.add (mlpNew e winit nIn hiddens scope w.mem).1 (mlpNew e winit nIn hiddens scope w.mem).2)
  | .clone i scope => w.use i >>= fun a => mlpClone e a scope w.mem >>= fun r => .ok (w.add r.1 r.2)
  | .assign i j => w.use i >>= fun a => w.use j >>= fun b => mlpAssign e (i == j) a b w.mem >>= fun r =>
      .ok ({ w with mem := r.2 }.setNet i (some r.1))
  | .move i => w.use i >>= fun a => .ok ((w.setNet i (some (mlpMove rest a).2)).add (mlpMove rest a).1 w.mem)
  | .moveAssign i j => w.use i >>= fun a => w.use j >>= fun b =>
      if i = j then .ok w
      else mlpMoveAssign rest a b w.mem >>= fun r => .ok (({ w with mem := r.2.2 }.setNet i (some r.1)).setNet j (some r.2.1))
  | .delete i => w.use i >>= fun a => mlpDelete a w.mem >>= fun m => .ok ({ w with mem := m }.setNet i none)
  | .put i k l => w.use i >>= fun a => nth a.vars k >>= fun x => w.mem.deref x >>= fun v =>
      .ok { w with mem := w.mem.set x (some ⟨v.label, l⟩) }

def World.run (e : Env T) (winit : Nat → Nat → T) (rest : List Char → List Char) (w : World T) : List (Step T) → Outcome (World T)
  | [] => .ok w
  | s :: ss => w.step e winit rest s >>= fun w' => w'.run e winit rest ss

/-! ### rbm -/

/-- Memory in which a variable may be hollow: its contents were moved away, and it is still to be deleted. -/
structure Store (T : Type) where
  mem : Mem T
  hollow : List Nat

/-- `x->move()`, variable.ipp:37-41, 200-204; ileaf.ipp:126-131, 159-169; ivariable.ipp:88-93, 113-123; inode.ipp:137-140:
a new variable takes label, data, initialisation state and initializer.  `p` may be null.  (Its observers follow, which
the graph models describe.) -/
def moveVar (p : Option Nat) (s : Store T) : Outcome (Nat × Store T) :=
  match p with
  | none => .ub
  | some x =>
    if x ∈ s.hollow then .ok (s.mem.next, ⟨⟨s.mem.next + 1, s.mem.at_⟩, s.mem.next :: s.hollow⟩)
    else s.mem.deref x >>= fun v => .ok ((s.mem.alloc v).1, ⟨(s.mem.alloc v).2.set x none, x :: s.hollow⟩)

/-- `delete`, for a variable that may be hollow. -/
def Store.delete (x : Nat) (s : Store T) : Outcome (Store T) :=
  if x ∈ s.hollow then .ok ⟨s.mem, s.hollow.erase x⟩
  else s.mem.delete x >>= fun m => .ok ⟨m, s.hollow⟩

def Store.deleteAll : List Nat → Store T → Outcome (Store T)
  | [], s => .ok s
  | x :: xs, s => s.delete x >>= fun s' => Store.deleteAll xs s'

/-- `rbm::move_helper`, rbm.cpp:217-223: the number of hidden units is not moved; the pointers of `other` stay. -/
def rbmMoveHelper (this other : RBM) (s : Store T) : Outcome (RBM × Store T) :=
  moveVar other.weight s >>= fun w => moveVar other.hbias w.2 >>= fun h => moveVar other.vbias h.2 >>= fun v =>
    .ok (⟨this.scope, other.nIn, this.nHidden, some w.1, some h.1, some v.1⟩, v.2)

/-- `rbm::move`, rbm.cpp:44-47, 193-197, 204-207: the new machine, what is left of the old one, and the memory. -/
def rbmMove (rest : List Char → List Char) (a : RBM) (s : Store T) : Outcome (RBM × RBM × Store T) :=
  rbmMoveHelper ⟨a.scope, 0, none, none, none, none⟩ a s >>= fun r =>
    .ok (r.1, ⟨rest a.scope, a.nIn, a.nHidden, a.weight, a.hbias, a.vbias⟩, r.2)

/-- `rbm::~rbm`, rbm.cpp:34-37, 225-234. -/
def rbmDelete (a : RBM) (s : Store T) : Outcome (Store T) := Store.deleteAll (a.weight.toList ++ a.hbias.toList ++ a.vbias.toList) s

/-- `rbm::operator = (rbm&&)`, rbm.cpp:60-69.  The guard is `this == &other`: different objects are left alone, one object
is cleaned up and then moved from itself. -/
def rbmMoveAssign (rest : List Char → List Char) (same : Bool) (this other : RBM) (s : Store T) : Outcome (RBM × RBM × Store T) :=
  if same then rbmDelete this s >>= fun s' =>
    rbmMoveHelper ⟨this.scope, this.nIn, this.nHidden, none, none, none⟩ ⟨this.scope, this.nIn, this.nHidden, none, none, none⟩ s' >>= fun r =>
      .ok (r.1, ⟨rest r.1.scope, r.1.nIn, r.1.nHidden, r.1.weight, r.1.hbias, r.1.vbias⟩, r.2)
  else .ok (this, other, s)

/-! ### db_net -/

def RBM.owned (a : RBM) : List Nat := a.weight.toList ++ a.hbias.toList ++ a.vbias.toList

/-- The variables a deep belief network deletes when it is cleaned up, in order, db_net.cpp:189-201. -/
def DBN.owned (d : DBN) : List Nat := d.layers.flatMap RBM.owned ++ (d.log.map FC.vars).getD []

/-- `db_net::~db_net`, db_net.cpp:36-39, 189-201. -/
def dbnDelete (d : DBN) (s : Store T) : Outcome (Store T) := Store.deleteAll d.owned s

/-- `db_net::move`, db_net.cpp:46-49, 152-156, 163-166, 181-187: `log_layer_` is not moved. -/
def dbnMove (rest : List Char → List Char) (d : DBN) : DBN × DBN :=
  (⟨d.scope, d.nIn, d.nOut, d.layers, none⟩, ⟨rest d.scope, d.nIn, d.nOut, [], d.log⟩)

/-- `db_net::operator = (db_net&&)` between different objects, db_net.cpp:61-69. -/
def dbnMoveAssign (rest : List Char → List Char) (this other : DBN) (s : Store T) : Outcome (DBN × DBN × Store T) :=
  dbnDelete this s >>= fun s' => .ok ((dbnMove rest other).1, (dbnMove rest other).2, s')

/-! ### dq_net -/

/-- `dq_net::move_helper`, dq_net.cpp:246-269, into an object holding the given experiences, which it leaves alone: the new
network and what is left of the old one. -/
def dqnMove {S E : Type} (rest : List Char → List Char) (own : List E) (q : DQN S E) : DQN S E × DQN S E :=
  (⟨q.scope, q.state, own, (mlpMove rest q.source).1, (mlpMove rest q.target).1⟩,
   ⟨rest q.scope, q.state, q.experiences, (mlpMove rest q.source).2, (mlpMove rest q.target).2⟩)

/-- `dq_net::operator = (dq_net&&)` between different objects, dq_net.cpp:56-64, 179-221. -/
def dqnMoveAssign {S E : Type} (rest : List Char → List Char) (this other : DQN S E) (m : Mem T) : Outcome (DQN S E × DQN S E × Mem T) :=
  Mem.deleteAll (this.source.vars ++ this.target.vars) m >>= fun m' => .ok ((dqnMove rest this.experiences other).1, (dqnMove rest this.experiences other).2, m')

end Verif.Nets
