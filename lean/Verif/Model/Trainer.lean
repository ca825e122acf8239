import Verif.Model.Moves
/-!
# Model of owning, copying and moving a gradient-descent trainer
(app/rocnnet/src/models/gd_net.cpp, app/tenncor/src/utils/gd_utils.cpp, src/graph/leaf/placeholder.ipp)

The graph built by `setup` is left to the other models; what remains of it here is which variables `train` changes.  The
network is a perceptron.  Addresses are never reused.
-/
namespace Verif.Nets
open Verif

variable {T : Type}

/-- A vanilla updater, gd_utils.hpp:22-75: the learning rate and the variables to leave alone, by address. -/
structure Updater (T : Type) where
  rate : T
  ignored : List Nat

/-- gd_net.hpp:62-80.  `changes` are the variables captured by `updates_`. -/
structure Trainer (T : Type) where
  scope : List Char
  brain : MLP
  testIn : Nat
  trainIn : Nat
  wanted : Nat
  updater : Updater T
  changes : List Nat

/-- What a trainer deletes, in order, gd_net.cpp:136-150; mlp.cpp:139-146. -/
def Trainer.owned (g : Trainer T) : List Nat := [g.testIn, g.trainIn, g.wanted] ++ g.brain.vars

/-- `gd_updater::calculate` on the error of a network, gd_utils.cpp:20-40, gd_net.cpp:102-111: the leaves of the error that
are variables (the parameters of the network, C65) and not ignored.  Their order is that of a hash set; here it is that of
`get_variables`. -/
def Updater.calculate (u : Updater T) (brain : MLP) : List Nat := brain.vars.filter fun x => !decide (x ∈ u.ignored)

/-- `ignore_subtree`, gd_utils.cpp:42-52, for a node whose variables are `xs`. -/
def Updater.ignore (u : Updater T) (xs : List Nat) : Updater T := ⟨u.rate, xs ++ u.ignored⟩

/-- `clear_ignore`, gd_utils.cpp:54-57. -/
def Updater.clear (u : Updater T) : Updater T := ⟨u.rate, []⟩

/-- `set_learning_rate`, gd_utils.cpp:59-62. -/
def Updater.setRate (u : Updater T) (r : T) : Updater T := ⟨r, u.ignored⟩

/-- The constructor, gd_net.cpp:18-30: the network is taken over, the updater is copied.  The number of outputs of a
network without layers is not initialised. -/
def trainerNew (e : Env T) (brain : MLP) (u : Updater T) (scope : List Char) (s : Store T) : Outcome (Trainer T × Store T) :=
  match brain.nOut with
  | none => .ub
  | some o =>
    let a := s.mem.alloc ⟨scope ++ "_in".toList, Leaf.newVariable e [brain.nIn, 0] none⟩
    let b := a.2.alloc ⟨"train_in".toList, Leaf.newVariable e [brain.nIn, 0] none⟩
    let c := b.2.alloc ⟨"expected_out".toList, Leaf.newVariable e [o, 0] none⟩
    .ok (⟨scope, brain, a.1, b.1, c.1, u, u.calculate brain⟩, ⟨c.2, s.hollow⟩)

/-- `gd_net::copy_helper`, gd_net.cpp:113-122, into a new object (37-40): the scope asked for goes to the network alone.  The
updater is copied as it is, with the addresses it ignores (gd_utils.cpp:68-73). -/
def trainerCopy (e : Env T) (other : Trainer T) (scope : List Char) (s : Store T) : Outcome (Trainer T × Store T) :=
  cloneVar e other.testIn none s.mem >>= fun a => cloneVar e other.trainIn none a.2 >>= fun b => cloneVar e other.wanted none b.2 >>= fun c =>
    mlpClone e other.brain scope c.2 >>= fun r =>
      .ok (⟨other.scope, r.1, a.1, b.1, c.1, other.updater, other.updater.calculate r.1⟩, ⟨r.2, s.hollow⟩)

/-- `gd_net::~gd_net`, gd_net.cpp:32-35, 136-150. -/
def trainerDelete (g : Trainer T) (s : Store T) : Outcome (Store T) := Store.deleteAll g.owned s

/-- `gd_net::operator = (const gd_net&)`, gd_net.cpp:47-55. -/
def trainerAssign (e : Env T) (same : Bool) (this other : Trainer T) (s : Store T) : Outcome (Trainer T × Store T) :=
  if same then .ok (this, s) else trainerDelete this s >>= fun s' => trainerCopy e other [] s'

/-- `gd_net::move_helper`, gd_net.cpp:124-134, into a new object: the new trainer and what is left of the old one, which
keeps its placeholders, hollow, its updater (a class with a destructor has no move constructor: the updater is copied) and
its updates. -/
def trainerMove (rest : List Char → List Char) (g : Trainer T) (s : Store T) : Outcome (Trainer T × Trainer T × Store T) :=
  moveVar (some g.testIn) s >>= fun a => moveVar (some g.trainIn) a.2 >>= fun b => moveVar (some g.wanted) b.2 >>= fun c =>
    .ok (⟨g.scope, (mlpMove rest g.brain).1, a.1, b.1, c.1, g.updater, g.updater.calculate (mlpMove rest g.brain).1⟩,
      ⟨rest g.scope, (mlpMove rest g.brain).2, g.testIn, g.trainIn, g.wanted, g.updater, g.changes⟩, c.2)

/-- The updates, one after the other; `f x` is what the update of variable `x` makes of its content (C65). -/
def changeAll (f : Nat → Leaf T → Leaf T) : List Nat → Mem T → Outcome (Mem T)
  | [], m => .ok m
  | x :: xs, m => m.deref x >>= fun v => changeAll f xs (m.set x (some ⟨v.label, f x v.leaf⟩))

/-- `gd_net::train`, gd_net.cpp:78-88: assigning to a placeholder whose data was moved away is undefined.  `fi` and `fw` are
what the assignments make of the placeholders. -/
def trainerTrain (fi fw : Leaf T → Leaf T) (f : Nat → Leaf T → Leaf T) (g : Trainer T) (s : Store T) : Outcome (Store T) :=
  s.mem.deref g.trainIn >>= fun v =>
    (s.mem.set g.trainIn (some ⟨v.label, fi v.leaf⟩)).deref g.wanted >>= fun w =>
      changeAll f g.changes ((s.mem.set g.trainIn (some ⟨v.label, fi v.leaf⟩)).set g.wanted (some ⟨w.label, fw w.leaf⟩)) >>= fun m => .ok ⟨m, s.hollow⟩

end Verif.Nets
