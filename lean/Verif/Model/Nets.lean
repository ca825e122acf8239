import Verif.Model.Leaf
/-!
# Model of layers and networks as owners of variables
(app/rocnnet/src/layers/{ilayer,fc_layer}.cpp, src/compounds/mlp.cpp, src/models/{rbm,db_net,gd_net,dq_net}.cpp)

Memory maps addresses to live variables; using a deleted one or deleting twice is undefined behaviour.  A layer object
is owned by exactly one network, so layers are held by value.  Deleting a variable also deletes the graph built on it;
that is left to the graph models, as are the graphs the networks build.  `std::string` is a list of characters;
an uninitialised or null member is `none`.
-/
namespace Verif.Nets
open Verif

variable {T : Type}

structure Var (T : Type) where
  label : List Char
  leaf : Leaf T

structure Mem (T : Type) where
  next : Nat
  at_ : Nat → Option (Var T)

def Mem.set (m : Mem T) (x : Nat) (v : Option (Var T)) : Mem T := { m with at_ := fun k => if k = x then v else m.at_ k }

/-- `new variable`: an address never used before. -/
def Mem.alloc (m : Mem T) (v : Var T) : Nat × Mem T := (m.next, ⟨m.next + 1, fun k => if k = m.next then some v else m.at_ k⟩)

/-- Dereferencing a variable. -/
def Mem.deref (m : Mem T) (x : Nat) : Outcome (Var T) :=
  match m.at_ x with
  | some v => .ok v
  | none => .ub

/-- `delete`. -/
def Mem.delete (x : Nat) (m : Mem T) : Outcome (Mem T) := m.deref x >>= fun _ => .ok (m.set x none)

/-- `delete` for each, in order. -/
def Mem.deleteAll : List Nat → Mem T → Outcome (Mem T)
  | [], m => .ok m
  | x :: xs, m => m.delete x >>= fun m' => Mem.deleteAll xs m'

/-- The leaf made by the copy constructor of a variable: the data is copied if the source is initialised, otherwise
only its shapes; the initializer is cloned.  ileaf.ipp:119-124, 143-157; ivariable.ipp:84-89, 98-115. -/
def copyLeaf (e : Env T) (l : Leaf T) : Outcome (Leaf T) :=
  l.data.copyHelper e (!l.isInit) >>= fun t => .ok ⟨t, l.isInit, l.init⟩

/-- `variable::clone`, variable.ipp:31-35, 195-198, with `set_label` when a label is given. -/
def cloneVar (e : Env T) (x : Nat) (label : Option (List Char)) (m : Mem T) : Outcome (Nat × Mem T) :=
  m.deref x >>= fun v => copyLeaf e v.leaf >>= fun l => .ok (m.alloc ⟨label.getD v.label, l⟩)

def num (n : Nat) : List Char := Nat.toDigits 10 n

/-! ### fc_layer -/

structure FC where
  scope : List Char
  wb : List (Nat × Nat)

def weightLabel (scope : List Char) (i : Nat) : List Char := scope ++ "_weights_".toList ++ num i
def biasLabel (scope : List Char) (i : Nat) : List Char := scope ++ "_bias_".toList ++ num i

/-- The loop of the constructor of fc_layer from input `i`, fc_layer.cpp:21-30.  `winit n` is the random initializer
for `n` inputs, `zinit` the constant 0. -/
def fcNewFrom (e : Env T) (winit : Nat → Nat → T) (nOut : Nat) (scope : List Char) : Nat → List Nat → Mem T → List (Nat × Nat) × Mem T
  | _, [], m => ([], m)
  | i, n :: ns, m =>
    let w := m.alloc ⟨weightLabel scope i, Leaf.newVariable e [nOut, n] (some (winit n))⟩
    let b := w.2.alloc ⟨biasLabel scope i, Leaf.newVariable e [nOut] (some fun _ => e.zero)⟩
    let r := fcNewFrom e winit nOut scope (i + 1) ns b.2
    ((w.1, b.1) :: r.1, r.2)

/-- The constructor of fc_layer, fc_layer.cpp:16-31. -/
def fcNew (e : Env T) (winit : Nat → Nat → T) (nIns : List Nat) (nOut : Nat) (scope : List Char) (m : Mem T) : FC × Mem T :=
  (⟨scope, (fcNewFrom e winit nOut scope 0 nIns m).1⟩, (fcNewFrom e winit nOut scope 0 nIns m).2)

/-- `fc_layer::get_variables`, fc_layer.cpp:84-93. -/
def FC.vars (f : FC) : List Nat := f.wb.flatMap fun p => [p.1, p.2]

/-- `fc_layer::copy_helper` from pair `i`, fc_layer.cpp:117-128. -/
def fcCopyFrom (e : Env T) (scope : List Char) : Nat → List (Nat × Nat) → Mem T → Outcome (List (Nat × Nat) × Mem T)
  | _, [], m => .ok ([], m)
  | i, p :: ps, m => cloneVar e p.1 (some (weightLabel scope i)) m >>= fun w =>
      cloneVar e p.2 (some (biasLabel scope i)) w.2 >>= fun b =>
        fcCopyFrom e scope (i + 1) ps b.2 >>= fun r => .ok ((w.1, b.1) :: r.1, r.2)

/-- The scope of a copy, ilayer.cpp:46-56. -/
def copyScope (own given : List Char) : List Char := if given = [] then own ++ "_cpy".toList else given

/-- `fc_layer::clone`, fc_layer.cpp:38-41, 95-99. -/
def fcClone (e : Env T) (f : FC) (scope : List Char) (m : Mem T) : Outcome (FC × Mem T) :=
  fcCopyFrom e (copyScope f.scope scope) 0 f.wb m >>= fun r => .ok (⟨copyScope f.scope scope, r.1⟩, r.2)

/-- `fc_layer::operator = (const fc_layer&)`, fc_layer.cpp:48-56; `same` says the two are one object.  The scope is
not assigned. -/
def fcAssign (e : Env T) (same : Bool) (this other : FC) (m : Mem T) : Outcome (FC × Mem T) :=
  if same then .ok (this, m)
  else Mem.deleteAll this.vars m >>= fun m' => fcCopyFrom e this.scope 0 other.wb m' >>= fun r => .ok (⟨this.scope, r.1⟩, r.2)

/-! ### mlp -/

/-- The activation of a layer is an opaque name. -/
structure MLP where
  scope : List Char
  nIn : Nat
  nOut : Option Nat
  layers : List (FC × Nat)

def MLP.vars (a : MLP) : List Nat := a.layers.flatMap fun p => p.1.vars

/-- The loop of the constructor, mlp.cpp:22-29. -/
def mlpNewFrom (e : Env T) (winit : Nat → Nat → T) (scope : List Char) : Nat → Nat → List (Nat × Nat) → Mem T → List (FC × Nat) × Mem T
  | _, _, [], m => ([], m)
  | level, n, h :: hs, m =>
    let f := fcNew e winit [n] h.1 (scope ++ ":hidden_".toList ++ num level) m
    let r := mlpNewFrom e winit scope (level + 1) h.1 hs f.2
    ((f.1, h.2) :: r.1, r.2)

/-- The constructor of mlp, mlp.cpp:16-30; without hidden layers the number of outputs is not initialised. -/
def mlpNew (e : Env T) (winit : Nat → Nat → T) (nIn : Nat) (hiddens : List (Nat × Nat)) (scope : List Char) (m : Mem T) : MLP × Mem T :=
  (⟨scope, nIn, hiddens.getLast?.map Prod.fst, (mlpNewFrom e winit scope 0 nIn hiddens m).1⟩, (mlpNewFrom e winit scope 0 nIn hiddens m).2)

/-- The loop of `mlp::copy_helper` from layer `i`, mlp.cpp:123-128. -/
def mlpCopyFrom (e : Env T) (scope : List Char) : Nat → List (FC × Nat) → Mem T → Outcome (List (FC × Nat) × Mem T)
  | _, [], m => .ok ([], m)
  | i, p :: ps, m => fcClone e p.1 (scope ++ ":hiddens".toList ++ num i) m >>= fun f =>
      mlpCopyFrom e scope (i + 1) ps f.2 >>= fun r => .ok ((f.1, p.2) :: r.1, r.2)

/-- `mlp::clone`, mlp.cpp:37-40, 97-101. -/
def mlpClone (e : Env T) (a : MLP) (scope : List Char) (m : Mem T) : Outcome (MLP × Mem T) :=
  mlpCopyFrom e (copyScope a.scope scope) 0 a.layers m >>= fun r => .ok (⟨copyScope a.scope scope, a.nIn, a.nOut, r.1⟩, r.2)

/-- `mlp::operator = (const mlp&)`, mlp.cpp:47-56. -/
def mlpAssign (e : Env T) (same : Bool) (this other : MLP) (m : Mem T) : Outcome (MLP × Mem T) :=
  if same then .ok (this, m)
  else Mem.deleteAll this.vars m >>= fun m' => mlpCopyFrom e other.scope 0 other.layers m' >>= fun r =>
    .ok (⟨other.scope, other.nIn, other.nOut, r.1⟩, r.2)

/-! ### rbm -/

structure RBM where
  scope : List Char
  nIn : Nat
  nHidden : Option Nat
  weight : Option Nat
  hbias : Option Nat
  vbias : Option Nat

/-- The constructor, rbm.cpp:16-32. -/
def rbmNew (e : Env T) (init : Nat → T) (nIn nHidden : Nat) (scope : List Char) (m : Mem T) : RBM × Mem T :=
  let w := m.alloc ⟨scope ++ "_weights".toList, Leaf.newVariable e [nHidden, nIn] (some init)⟩
  let h := w.2.alloc ⟨scope ++ "_hidden_bias".toList, Leaf.newVariable e [nHidden] (some fun _ => e.zero)⟩
  let v := h.2.alloc ⟨scope ++ "_visible_bias".toList, Leaf.newVariable e [nIn] (some fun _ => e.zero)⟩
  (⟨scope, nIn, some nHidden, some w.1, some h.1, some v.1⟩, v.2)

/-- `p->clone()` for a pointer that may be null. -/
def clonePtr (e : Env T) (p : Option Nat) (m : Mem T) : Outcome (Nat × Mem T) :=
  match p with
  | some x => cloneVar e x none m
  | none => .ub

/-- `rbm::copy_helper`, rbm.cpp:209-215: the number of hidden units is not copied. -/
def rbmCopy (e : Env T) (this other : RBM) (m : Mem T) : Outcome (RBM × Mem T) :=
  clonePtr e other.weight m >>= fun w => clonePtr e other.hbias w.2 >>= fun h => clonePtr e other.vbias h.2 >>= fun v =>
    .ok (⟨this.scope, other.nIn, this.nHidden, some w.1, some h.1, some v.1⟩, v.2)

/-- `rbm::clone`, rbm.cpp:39-42, 187-191; `n_hidden_` of the new object is not initialised. -/
def rbmClone (e : Env T) (a : RBM) (scope : List Char) (m : Mem T) : Outcome (RBM × Mem T) :=
  rbmCopy e ⟨copyScope a.scope scope, 0, none, none, none, none⟩ a m

/-- `rbm::clean_up`, rbm.cpp:225-234. -/
def rbmClean (a : RBM) (m : Mem T) : Outcome (RBM × Mem T) :=
  Mem.deleteAll (a.weight.toList ++ a.hbias.toList ++ a.vbias.toList) m >>= fun m' => .ok (⟨a.scope, a.nIn, a.nHidden, none, none, none⟩, m')

/-- `rbm::operator = (const rbm&)`, rbm.cpp:49-58.  The guard is `this == &other`: when they are one object it is
cleaned up and then copied from itself. -/
def rbmAssign (e : Env T) (same : Bool) (this _other : RBM) (m : Mem T) : Outcome (RBM × Mem T) :=
  if same then rbmClean this m >>= fun c => rbmCopy e c.1 c.1 c.2
  else .ok (this, m)

/-- `rbm::get_noutput`, rbm.hpp:71. -/
def RBM.noutput (a : RBM) : Outcome Nat :=
  match a.nHidden with
  | some n => .ok n
  | none => .ub

/-- `rbm::get_variables`, rbm.cpp:178-185 (null pointers would be returned as such). -/
def RBM.vars (a : RBM) : List (Option Nat) := [a.weight, a.hbias, a.vbias]

/-! ### db_net -/

structure DBN where
  scope : List Char
  nIn : Nat
  nOut : Nat
  layers : List RBM
  log : Option FC

/-- `db_net::get_variables`, db_net.cpp:129-140. -/
def DBN.vars (d : DBN) : Outcome (List (Option Nat)) :=
  match d.log with
  | some f => .ok (d.layers.flatMap RBM.vars ++ f.vars.map some)
  | none => .ub

/-- The loop of `db_net::copy_helper`, db_net.cpp:173-178. -/
def dbnCopyFrom (e : Env T) (scope : List Char) : Nat → List RBM → Mem T → Outcome (List RBM × Mem T)
  | _, [], m => .ok ([], m)
  | i, a :: as, m => rbmClone e a (scope ++ ":rbm_".toList ++ num i) m >>= fun f =>
      dbnCopyFrom e scope (i + 1) as f.2 >>= fun r => .ok (f.1 :: r.1, r.2)

/-- `db_net::clone`, db_net.cpp:41-44, 146-150, 168-179: `log_layer_` is not copied. -/
def dbnClone (e : Env T) (d : DBN) (scope : List Char) (m : Mem T) : Outcome (DBN × Mem T) :=
  dbnCopyFrom e (copyScope d.scope scope) 0 d.layers m >>= fun r => .ok (⟨copyScope d.scope scope, d.nIn, d.nOut, r.1, none⟩, r.2)

/-! ### dq_net -/

/-- The copied part of a Q-network: parameters and counters `S` (dq_net.cpp:228-234), replay memory `E`, and its two
networks.  The placeholders and graphs are rebuilt by `variable_setup`. -/
structure DQN (S E : Type) where
  scope : List Char
  state : S
  experiences : List E
  source : MLP
  target : MLP

/-- `dq_net::copy_helper`, dq_net.cpp:223-244, into an object holding the given experiences, which it leaves alone. -/
def dqnCopy {S E : Type} (e : Env T) (own : List E) (other : DQN S E) (scope : List Char) (m : Mem T) : Outcome (DQN S E × Mem T) :=
  mlpClone e other.source scope m >>= fun s => mlpClone e other.target ("target_".toList ++ scope) s.2 >>= fun t =>
    .ok (⟨other.scope, other.state, own, s.1, t.1⟩, t.2)

/-- The copy constructor, dq_net.cpp:36-39. -/
def dqnNewCopy {S E : Type} (e : Env T) (other : DQN S E) (scope : List Char) (m : Mem T) : Outcome (DQN S E × Mem T) :=
  dqnCopy e [] other scope m

/-- `dq_net::operator = (const dq_net&)`, dq_net.cpp:46-54, 179-221. -/
def dqnAssign {S E : Type} (e : Env T) (same : Bool) (this other : DQN S E) (m : Mem T) : Outcome (DQN S E × Mem T) :=
  if same then .ok (this, m)
  else Mem.deleteAll (this.source.vars ++ this.target.vars) m >>= fun m' => dqnCopy e this.experiences other [] m'

end Verif.Nets
