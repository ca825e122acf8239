import Verif.Model.Graph
import Verif.Spec.Leaf
import Mathlib.Analysis.Real.Sqrt
/-!
# Model of gradient-descent training
(app/tenncor/src/utils/gd_utils.cpp, src/graph/leaf/variable.ipp, app/rocnnet/src/models/gd_net.cpp,
app/rocnnet/src/models/dq_net.cpp)

The updaters returned by `variable::assign`, `assign_add` and `assign_sub` are records (`Act`) that are run on
the graph model.  A variable that is not initialised stays so: the assigner writes into a buffer nobody can
read and its observers do nothing (base_immutable.ipp:134-175).
-/
namespace Verif
namespace Graph
open React (forEach)

variable {V : Type}

/-- What an updater was made from, variable.ipp:92-95, 120-126, 151-157: a constant whose data was copied, a
scalar zero constant given to `assign_add`/`assign_sub` (which then do nothing), or another node. -/
inductive Src (V : Type) where
  | skip
  | const (v : V)
  | node (n : Nat)

/-- An updater and the flag it is called with.  `f old new` is the element-wise assigner, which may abort on a
size mismatch.  `sch` is the hash order used meanwhile. -/
structure Act (V : Type) where
  leaf : Nat
  f : V → V → Outcome V
  src : Src V
  ntf : Bool
  sch : Sched

/-- The assigner and the notification, variable.ipp:97-103, 110-116. -/
def applyTo (u : Act V) (b : V) (g : G V) : Outcome (G V) :=
  if g.alive u.leaf && !isOp g u.leaf then
    match g.data u.leaf with
    | some a => u.f a b >>= fun v => assign u.sch u.leaf v u.ntf g
    | none => .ok g
  else .ub

/-- `assert(in_tens)`, variable.ipp:111. -/
def applyEval (u : Act V) (r : Option V × G V) : Outcome (G V) :=
  match r.1 with
  | some b => applyTo u b r.2
  | none => .abort

/-- Running an updater, variable.ipp:89-188. -/
def act (u : Act V) (g : G V) : Outcome (G V) :=
  match u.src with
  | .skip => .ok g
  | .const b => applyTo u b g
  | .node n => eval u.sch n g >>= fun r => applyEval u r

/-- `gd_net::train` after the placeholders are set, gd_net.cpp:82-87; the same in dq_net.cpp:147-153. -/
def trainRound (s₁ s₂ : Sched) (root : Nat) (us : List (Act V)) (g : G V) : Outcome (G V) :=
  freezeStatus s₁ root true g >>= fun g => forEach act us g >>= fun g => freezeStatus s₂ root false g

/-! ### Concrete updaters over real buffers -/

/-- `e1 - e2` element by element; the sizes must agree, tensor_handler.ipp:101-115, variable.ipp:169-188. -/
def subEach (a b : List ℝ) : Outcome (List ℝ) :=
  if a.length = b.length then .ok (Spec.mapTwo (· - ·) a b) else .abort

/-- The plain assigner, tensor_handler.ipp:101-115. -/
def setEach (a b : List ℝ) : Outcome (List ℝ) := if a.length = b.length then .ok b else .abort

/-- Element-wise subtraction as a node, elementary.ipp:1548-1577, for arguments of equal size (C14 has the
operation on tensors). -/
def subF : List (List ℝ) → Outcome (List ℝ)
  | [a, b] => subEach a b
  | _ => .abort

/-- Multiplication by a number as a node, elementary.ipp:1580-1607. -/
def scaleF (c : ℝ) : List (List ℝ) → Outcome (List ℝ)
  | [a] => .ok (a.map (c * ·))
  | _ => .abort

/-- `number * node`, elementary.ipp:1580-1632, for a node that is no constant: zero gives the constant zero, which `assign_sub` skips, one the node itself,
and otherwise there is a new node (for -1 it is the negation, which computes the same). -/
noncomputable def scaleNode (sch : Sched) (c : ℝ) (n : Nat) (g : G (List ℝ)) : Outcome (Src (List ℝ) × G (List ℝ)) :=
  if c = 0 then .ok (.skip, g)
  else if c = 1 then .ok (.node n, g)
  else newOp sch (scaleF c) [n] false g >>= fun g' => .ok (.node g.defs.length, g')

/-- The update of one target variable `t` from `s`, dq_net.cpp:319-324; the nodes are new, because both
variables are. -/
noncomputable def targetUpdate (sch : Sched) (rate : ℝ) (t s : Nat) (g : G (List ℝ)) : Outcome (Act (List ℝ) × G (List ℝ)) :=
  newOp sch subF [t, s] false g >>= fun g' =>
    scaleNode sch rate g.defs.length g' >>= fun r => .ok (⟨t, subEach, r.1, true, sch⟩, r.2)

/-- The loop of dq_net.cpp:316-324. -/
noncomputable def targetUpdates (sch : Sched) (rate : ℝ) : List (Nat × Nat) → G (List ℝ) → Outcome (List (Act (List ℝ)) × G (List ℝ))
  | [], g => .ok ([], g)
  | p :: ps, g => targetUpdate sch rate p.1 p.2 g >>= fun r => targetUpdates sch rate ps r.2 >>= fun q => .ok (r.1 :: q.1, q.2)

/-- The target updates of `k` training steps, dq_net.cpp:155-158 (the calls in between are not shown). -/
def updateTimes : Nat → List (Act V) → G V → Outcome (G V)
  | 0, _, g => .ok g
  | k + 1, us, g => forEach act us g >>= fun g => updateTimes k us g

/-- The variables an updater trains, gd_utils.cpp:20-40: the leaves of the root that are variables and not
ignored, in the iteration order of the leaf set. -/
def trained (isVar : Nat → Bool) (ignored : List Nat) (order : List Nat → List Nat) (g : G V) (root : Nat) : List Nat :=
  (order (g.leaves root)).filter fun l => isVar l && !decide (l ∈ ignored)

/-- `ignore_subtree`, gd_utils.cpp:42-52. -/
def ignoreSubtree (isVar : Nat → Bool) (g : G V) (subroot : Nat) (ignored : List Nat) : List Nat :=
  (g.leaves subroot).filter isVar ++ ignored

/-- Calls on the ignore set: `ignore_subtree` or `clear_ignore` (gd_utils.cpp:54-57). -/
inductive IgnoreCall where
  | subtree (n : Nat)
  | clear

def ignoredBy (isVar : Nat → Bool) (g : G V) : List IgnoreCall → List Nat
  | [] => []
  | .subtree n :: cs => ignoreSubtree isVar g n (ignoredBy isVar g cs)
  | .clear :: _ => []

/-- `vgb_updater::process_update` for pairs of a variable and its gradient node, gd_utils.cpp:35-39, 81-86.
(A step node of the same name that exists already is taken instead; see C34.) -/
noncomputable def vgbUpdates (sch : Sched) (lr : ℝ) : List (Nat × Nat) → G (List ℝ) → Outcome (List (Act (List ℝ)) × G (List ℝ))
  | [], g => .ok ([], g)
  | p :: ps, g => scaleNode sch lr p.2 g >>= fun r => vgbUpdates sch lr ps r.2 >>= fun q => .ok (⟨p.1, subEach, r.1, true, sch⟩ :: q.1, q.2)

/-- Unary nodes: `pow(a, 2)`, `sqrt(a)` and `a + number`, elementary.ipp:905-945, 792-827, 1379-1421. -/
def mapF (f : ℝ → ℝ) : List (List ℝ) → Outcome (List ℝ)
  | [a] => .ok (a.map f)
  | _ => .abort

/-- Binary nodes for arguments of equal size: addition and division, elementary.ipp:1424-1453, 1829-1866. -/
def zipF (f : ℝ → ℝ → ℝ) : List (List ℝ) → Outcome (List ℝ)
  | [a, b] => if a.length = b.length then .ok (Spec.mapTwo f a b) else .abort
  | _ => .abort

/-- The numbers of an rmsprop updater: learning rate, discount factor and epsilon. -/
structure Rms where
  lr : ℝ
  d : ℝ
  eps : ℝ

/-- A trained variable with its gradient node and its number of elements. -/
structure Trainee where
  leaf : Nat
  grad : Nat
  n : Nat

/-- The nodes `rmspropupdater::process_update` makes, gd_utils.cpp:217-229; the first one is the momentum variable,
whose number is `b`, initialised with ones; then `d * momentum`, `grad^2`, `(1 - d) * grad^2`, `momentum_step`,
`grad * lr`, `sqrt(momentum_step)`, that plus epsilon, and `leaf_step`.  For `d`, `lr` or epsilon 0 or 1 some of the
nodes are not made (see `scaleNode`); this is the general case.  C++ leaves the order of operands open. -/
noncomputable def rmsCalls (r : Rms) (p : Trainee) (b : Nat) : List (Call (List ℝ)) :=
  [.newLeaf (some (List.replicate p.n 1)), .newOp (mapF (r.d * ·)) [b] false, .newOp (mapF (· ^ 2)) [p.grad] false,
   .newOp (mapF ((1 - r.d) * ·)) [b + 2] false, .newOp (zipF (· + ·)) [b + 1, b + 3] false, .newOp (mapF (r.lr * ·)) [p.grad] false,
   .newOp (mapF Real.sqrt) [b + 4] false, .newOp (mapF (· + r.eps)) [b + 6] false, .newOp (zipF (· / ·)) [b + 5, b + 7] false]

/-- `process_update` for every trained variable; returns the numbers of the momentum variables. -/
noncomputable def rmsUpdates (sch : Sched) (r : Rms) : List Trainee → G (List ℝ) → Outcome (List Nat × G (List ℝ))
  | [], g => .ok ([], g)
  | p :: ps, g => run ((rmsCalls r p g.defs.length).map fun c => (sch, c)) g >>= fun g' =>
      rmsUpdates sch r ps g' >>= fun q => .ok (g.defs.length :: q.1, q.2)

/-- The updates, gd_utils.cpp:225-233: the momentum is assigned without notification, then the leaf. -/
def rmsActs (sch : Sched) : List Trainee → List Nat → List (Act (List ℝ))
  | p :: ps, b :: bs => ⟨b, setEach, .node (b + 4), false, sch⟩ :: ⟨p.leaf, subEach, .node (b + 8), true, sch⟩ :: rmsActs sch ps bs
  | _, _ => []

end Graph
end Verif
