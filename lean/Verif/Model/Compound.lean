import Verif.Model.IO
/-!
# Model of saving and initialising a compound (app/rocnnet/src/compounds/icompound.cpp) and a Q-network
(app/rocnnet/src/models/dq_net.cpp:164-177)

A compound is the list of its variables (`get_variables`) and its scope; nodes live in the heap of the model of
loading.  A missing file name is an absent file.
-/
namespace Verif.Compound
open Verif Verif.IO

variable {T : Type}

/-- `eval` of a node of the heap; operation nodes do not occur among variables. -/
def evalAt (h : Heap T) (x : Nat) : Option (Tensor T) :=
  match h x with
  | .leaf l => l.eval
  | .other => none

/-- `if (scope.empty()) scope = scope_;`, icompound.cpp:32, 49; dq_net.cpp:166, 173. -/
def scopeOr (given own : List Char) : List Char := if given = [] then own else given

/-- `v->initialize()` on a node that is a variable, icompound.cpp:43. -/
def initAt (e : Env T) (x : Nat) (h : Heap T) : Outcome (Heap T) :=
  match h x with
  | .leaf l => l.init0 e >>= fun l' => .ok (h.set x (.leaf l'))
  | .other => .ub

/-- The loop of icompound.cpp:41-44. -/
def initAll (e : Env T) : List Nat → Heap T → Outcome (Heap T)
  | [], h => .ok h
  | x :: xs, h => initAt e x h >>= fun h' => initAll e xs h'

/-- `icompound::initialize`, icompound.cpp:30-45. -/
def initCompound (r : ByteRep T) (e : Env T) (own readscope : List Char) (vars : List Nat) (file : File) (h : Heap T) :
    Outcome (Heap T) :=
  readInorder r e vars (scopeOr readscope own) file h >>= fun x =>
    if x.2.2 && x.2.1.isEmpty then .ok x.1 else initAll e vars x.1

/-- `icompound::save`, icompound.cpp:47-53: the contents of the file on disk as the call progresses, and its result. -/
def save (r : ByteRep T) (own writescope : List Char) (vars : List Nat) (fails : Bool) (file : File) (h : Heap T) :
    Outcome (List File × Bool) :=
  writeInorder r (vars.map (evalAt h)) (scopeOr writescope own) fails file

/-- `"target_"` -/
def targetPrefix : List Char := ['t', 'a', 'r', 'g', 'e', 't', '_']

/-- A Q-network: its scope, and the scopes and variables of its two compounds. -/
structure QNet where
  scope : List Char
  sourceScope : List Char
  source : List Nat
  targetScope : List Char
  target : List Nat

/-- `dq_net::save`, dq_net.cpp:171-177. -/
def saveQ (r : ByteRep T) (q : QNet) (writescope : List Char) (fails₁ fails₂ : Bool) (file : File) (h : Heap T) :
    Outcome (List File × Bool) :=
  save r q.sourceScope (scopeOr writescope q.scope) q.source fails₁ file h >>= fun x =>
    save r q.targetScope (targetPrefix ++ scopeOr writescope q.scope) q.target fails₂ (x.1.getLastD file) h >>= fun y =>
      .ok (x.1 ++ y.1, x.2 && y.2)

/-- `dq_net::initialize`, dq_net.cpp:164-169. -/
def initQ (r : ByteRep T) (e : Env T) (q : QNet) (readscope : List Char) (file : File) (h : Heap T) : Outcome (Heap T) :=
  initCompound r e q.sourceScope (scopeOr readscope q.scope) q.source file h >>= fun h' =>
    initCompound r e q.targetScope (targetPrefix ++ scopeOr readscope q.scope) q.target file h'

end Verif.Compound
