import Verif.Model.React
import Mathlib.Data.List.Dedup
/-!
# Model of the Jacobian lists of operations
(app/tenncor/src/graph/connector/iconnector.ipp:152-170, 183-242, 271-346; connector/immutable/base_immutable.ipp:51-87,
177-251; connector/immutable/immutable.ipp:22-43, 175-205; connector/immutable/const_immutable.ipp:23-40;
operations/matmul.ipp:363-396; operations/elementary.ipp:364-388; graph/inode.ipp:130-138; react/subject.cpp:131-147)

An operation keeps, for every variable, the list of the transfer functions to apply to its gradient, each with a
plain pointer to the operation it was set on.  The list is inherited by the operations built on it, copied with
the operation, and read by `derive`.

Nodes are numbered in the order of their construction.  Simplifications: the transfer functions and the gradient
nodes they build are not in this model (`Model/Backprop` has them): what matters here is which operation a
function asks for its arguments and how many of them it reads.  Gradient nodes are held by smart pointers (C40),
so that they need no place here beyond whether the pointer is null.  A moved node is given the number of the
original, because the arguments of every operation follow the move (subject.cpp:131-143), and the shell that is
left behind takes a new number.
-/
namespace Verif
namespace Jacs
open React (upd forEach)

/-- An element of `list_`, iconnector.ipp:350: the function, known by the number of arguments it reads (`matmul` 2,
matmul.ipp:377-394; the axial operations 0, elementary.ipp:379-383), and the node it was set on. -/
structure Entry where
  reads : Nat
  orig : Nat
deriving DecidableEq

/-- `JList`, iconnector.ipp:344-352. -/
structure JList where
  uid : Nat
  list : List Entry
  terminal : Bool
deriving DecidableEq

inductive Node where
  | leaf
  | op (args : List Nat) (hides : Bool)
deriving DecidableEq

structure St where
  nodes : List Node
  alive : Nat → Bool
  /-- `jacobians_`: node, then variable -/
  jac : Nat → Nat → Option JList
  /-- `gcache_[leaf]` is not null -/
  got : Nat → Nat → Bool
  /-- the keys of `gcache_` -/
  leaves : Nat → List Nat
  /-- the next `uid_` -/
  uid : Nat

def St.empty : St :=
  { nodes := [], alive := fun _ => false, jac := fun _ _ => none, got := fun _ _ => false, leaves := fun _ => [], uid := 0 }

def Node.args : Node → List Nat
  | .leaf => []
  | .op as _ => as

def argsOf (g : St) (n : Nat) : List Nat := ((g.nodes[n]?).map Node.args).getD []

def newLeaf (g : St) : St :=
  { g with nodes := g.nodes ++ [.leaf], alive := upd g.alive g.nodes.length true, jac := upd g.jac g.nodes.length (fun _ => none), got := upd g.got g.nodes.length (fun _ => false), leaves := upd g.leaves g.nodes.length [g.nodes.length] }

/-- One argument in the loop of the constructor, iconnector.ipp:211-229. -/
def takeArg (this arg : Option JList) : Option JList :=
  match arg with
  | none => this
  | some j =>
    if j.list = [] then this
    else match this with
      | none => some { j with terminal := false }
      | some t => if j.uid ≠ t.uid then some { t with list := [], terminal := true } else some t

/-- The loop over the distinct arguments, iconnector.ipp:203-232 (a leaf has no `jacobians_`). -/
def inherited (g : St) (args : List Nat) (v : Nat) : Option JList :=
  (args.reverse.dedup.reverse).foldl (fun t a => takeArg t (g.jac a v)) none

/-- The Jacobian an operation is given when it is made: at the front (`axial_set_jacobian`) or at the back
(`matmul`), reading so many arguments, for these variables. -/
structure Own where
  front : Bool
  reads : Nat
  vars : List Nat

/-- `set_jacobian_front` and `set_jacobian_back` for one variable, iconnector.ipp:152-170; `fresh` is the `uid_` of a
list made here (one number for all variables: lists of different variables are never compared). -/
def pushOwn (fresh n : Nat) (o : Own) (t : Option JList) : Option JList :=
  match t with
  | none => some ⟨fresh, [⟨o.reads, n⟩], false⟩
  | some j => some { j with list := if o.front then ⟨o.reads, n⟩ :: j.list else j.list ++ [⟨o.reads, n⟩] }

def ownFor (own : Option Own) (v : Nat) : Option Own :=
  match own with
  | none => none
  | some o => if v ∈ o.vars then some o else none

/-- The keys of `gcache_` of a new operation, base_immutable.ipp:181-190; const_immutable.ipp:38 clears them. -/
def leavesOf (g : St) (args : List Nat) (hides : Bool) : List Nat :=
  if hides then [] else (args.flatMap g.leaves).dedup

/-- `jacobians_[v]` of a new operation: inherited (iconnector.ipp:203-232), erased for the leaves of `ignore_jacobian`
(immutable.ipp:29-40), cleared by `const_immutable` (const_immutable.ipp:39), and its own Jacobian pushed, which the library does
for leaves of the operation only (matmul.ipp:367-377, elementary.ipp:370-379). -/
def bornJac (g : St) (args : List Nat) (hides : Bool) (ignore : Option Nat) (own : Option Own) (v : Nat) : Option JList :=
  if v ∈ leavesOf g args hides then
    match ownFor own v with
    | none => if v ∈ (ignore.map g.leaves).getD [] then none else inherited g args v
    | some o => pushOwn g.uid g.nodes.length o (if v ∈ (ignore.map g.leaves).getD [] then none else inherited g args v)
  else none

/-- `immutable<T>::get`, immutable.ipp:22-43, followed by `set_jacobian_front` or `_back`. -/
def newOp (args : List Nat) (hides : Bool) (ignore : Option Nat) (own : Option Own) (g : St) : Outcome St :=
  if args = [] then .abort
  else if args.all g.alive && ignore.all g.alive then
    .ok { g with nodes := g.nodes ++ [.op args hides], alive := upd g.alive g.nodes.length true, jac := upd g.jac g.nodes.length (bornJac g args hides ignore own), got := upd g.got g.nodes.length (fun _ => false), leaves := upd g.leaves g.nodes.length (leavesOf g args hides), uid := g.uid + 1 }
  else .ub

/-- `jacobian_correction` on one list, iconnector.ipp:336-341: only the last element is looked at. -/
def correct (old new : Nat) (l : List Entry) : List Entry :=
  match l.getLast? with
  | none => l
  | some e => if e.orig = old then l.dropLast ++ [⟨e.reads, new⟩] else l

/-- `list.back()` of an empty list is undefined, iconnector.ipp:337 (the keys of `jacobians_` are among the leaves). -/
def backUndefined (g : St) (n : Nat) : Bool :=
  (g.leaves n).any (fun v => match g.jac n v with
    | some j => j.list.isEmpty
    | none => false)

def cloneOp (args : List Nat) (hides : Bool) (n : Nat) (g : St) : St :=
  { g with nodes := g.nodes ++ [.op args hides], alive := upd g.alive g.nodes.length true, jac := upd g.jac g.nodes.length (fun v => (g.jac n v).map (fun j => { j with list := correct n g.nodes.length j.list })), got := upd g.got g.nodes.length (g.got n), leaves := upd g.leaves g.nodes.length (g.leaves n) }

/-- `clone`: the copy constructors, iconnector.ipp:236-242, 300-308; base_immutable.ipp:238-251. -/
def clone (n : Nat) (g : St) : Outcome St :=
  if g.alive n then
    match g.nodes[n]? with
    | some (.op args h) => if backUndefined g n then .ub else .ok (cloneOp args h n g)
    | _ => .ok (newLeaf g)
  else .ub

def rename (old new : Nat) (x : Nat) : Nat := if x = old then new else x

def Entry.rename (old new : Nat) (e : Entry) : Entry := ⟨e.reads, Jacs.rename old new e.orig⟩

/-- The lists after node `n` has moved: the pointers to it are pointers to the shell now, except the one
corrected in its own list. -/
def movedList (n shell k : Nat) (l : List Entry) : List Entry :=
  if k = n then l.dropLast.map (Entry.rename n shell) ++ l.getLast?.toList else l.map (Entry.rename n shell)

def moveOp (hides : Bool) (n : Nat) (g : St) : St :=
  { g with nodes := g.nodes ++ [.op [] hides], alive := upd g.alive g.nodes.length true, jac := upd (fun k v => (g.jac k v).map (fun j => { j with list := movedList n g.nodes.length k j.list })) g.nodes.length (fun _ => none), got := upd g.got g.nodes.length (fun _ => false), leaves := upd g.leaves g.nodes.length [] }

/-- The keys of the gradient caches are pointers to the leaf that is a shell now. -/
def moveLeaf (n : Nat) (g : St) : St :=
  { g with nodes := g.nodes ++ [.leaf], alive := upd g.alive g.nodes.length true, jac := upd (fun k => upd (upd (g.jac k) g.nodes.length (g.jac k n)) n none) g.nodes.length (fun _ => none), got := upd (fun k => upd (upd (g.got k) g.nodes.length (g.got k n)) n false) g.nodes.length (fun _ => false), leaves := upd (upd (fun k => (g.leaves k).map (rename n g.nodes.length)) n [n]) g.nodes.length [g.nodes.length] }

/-- `move`: the move constructors, iconnector.ipp:244-250, 310-326; base_immutable.ipp:253-263; subject.cpp:131-143. -/
def move (n : Nat) (g : St) : Outcome St :=
  if g.alive n then
    match g.nodes[n]? with
    | some (.op _ h) => if backUndefined g n then .ub else .ok (moveOp h n g)
    | _ => .ok (moveLeaf n g)
  else .ub

/-- The nodes destroyed with `n` (`death_on_broken`, base_immutable.ipp:204-208). -/
def killed (g : St) (n : Nat) : List Nat :=
  (List.range g.nodes.length).foldl
    (fun acc k => if k = n ∨ ∃ a ∈ argsOf g k, a ∈ acc then k :: acc else acc) []

/-- `delete node`. -/
def delete (n : Nat) (g : St) : Outcome St :=
  if g.alive n then .ok { g with alive := fun k => g.alive k && decide (k ∉ killed g n) } else .ub

/-- `jacobians_[leaf]` with `operator[]`, immutable.ipp:183: makes an empty list where there is none. -/
def touch (n v : Nat) (g : St) : St :=
  match g.jac n v with
  | some _ => g
  | none => { g with jac := upd g.jac n (upd (g.jac n) v (some ⟨g.uid, [], false⟩)), uid := g.uid + 1 }

def setGot (n v : Nat) (b : Bool) (g : St) : St := { g with got := upd g.got n (upd (g.got n) v b) }

/-- One function of the list, iconnector.ipp:280-291: the node it was set on is asked for its arguments, and each
of them for its gradient. -/
def applyEntry (rec : Nat → St → Outcome St) (e : Entry) (g : St) : Outcome St :=
  if g.alive e.orig then
    if e.reads ≤ (argsOf g e.orig).length then forEach rec (argsOf g e.orig) g else .ub
  else .ub

/-- `jacobian_call`, iconnector.ipp:271-296: from the back to the front. -/
def jacobianCall (rec : Nat → St → Outcome St) (n v : Nat) (g : St) : Outcome St :=
  match g.jac n v with
  | none => .ok g
  | some j => forEach (applyEntry rec) j.list.reverse g

def isTerminal (g : St) (n v : Nat) : Bool :=
  match g.jac n v with
  | none => false
  | some j => j.terminal

/-- One argument in `backward_pass`, immutable.ipp:179-192. -/
def backArg (rec : Nat → St → Outcome St) (n v a : Nat) (g : St) : Outcome St :=
  if isTerminal (touch n v g) n v then rec a (touch n v g) >>= fun g => jacobianCall rec a v g
  else rec a (touch n v g)

/-- `get_gradient`, base_immutable.ipp:219-232, with `backward_pass`, immutable.ipp:175-194; the first argument
bounds the depth of the recursion. -/
def gradient : Nat → Nat → Nat → St → Outcome St
  | 0, _, _, _ => .abort
  | fuel + 1, v, n, g =>
    if g.alive n then
      if v ∈ g.leaves n ∧ g.got n v = false ∧ g.nodes[n]? ≠ some .leaf then
        forEach (backArg (gradient fuel v) n v) (argsOf g n) g >>= fun g => .ok (setGot n v true g)
      else .ok g
    else .ub

/-- `derive(variable)`, base_immutable.ipp:61-67. -/
def derive (n v : Nat) (g : St) : Outcome St :=
  gradient (g.nodes.length + 1) v n g >>= fun g => jacobianCall (gradient (g.nodes.length + 1) v) n v g

inductive Call where
  | newLeaf
  | newOp (args : List Nat) (hides : Bool) (ignore : Option Nat) (own : Option Own)
  | clone (n : Nat)
  | move (n : Nat)
  | delete (n : Nat)
  | derive (n v : Nat)
  /-- the gradient node was destroyed, so that the smart pointer in `gcache_` became null (varptr.ipp, C40) -/
  | forget (n v : Nat)

def step : Call → St → Outcome St
  | .newLeaf, g => .ok (newLeaf g)
  | .newOp args h i o, g => newOp args h i o g
  | .clone n, g => clone n g
  | .move n, g => move n g
  | .delete n, g => delete n g
  | .derive n v, g => derive n v g
  | .forget n v, g => .ok (setGot n v false g)

def run : List Call → St → Outcome St
  | [], g => .ok g
  | c :: cs, g => step c g >>= fun g => run cs g

end Jacs
end Verif
