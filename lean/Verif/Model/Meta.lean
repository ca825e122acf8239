import Verif.Model.Ask
/-!
# Model of node metadata
(app/tenncor/src/graph/inode.ipp:93-125; elementary.ipp, the calls of `extract_metadata` and of
`get_metadata("grouping")`; transform.ipp:295-307)

On top of `Model/Ask`: every node has a map from keys to numbers.  The quotient inside `reduce_mean` is taken without
looking at metadata (neither a reduction nor a shape extraction has any, unless set by hand).
-/
namespace Verif
namespace Meta
open Ask (Arith Op Node)
open Expr (Hash)
open scoped Classical

/-- The metadata of every node. -/
abbrev Map := Nat → List Char → Option Nat

structure St where
  base : Ask.St
  data : Map

def groupKey : List Char := "grouping".toList

/-- `extract_metadata`, inode.ipp:99-113: take over the keys that are not there yet. -/
def extract (n a : Nat) (m : Map) : Map := fun k key =>
  if k = n then
    match m n key with
    | some v => some v
    | none => m a key
  else m k key

/-- Whose metadata a new node takes over: `out->extract_metadata` at the end of the unary and scalar functions of
elementary.ipp (421, 471-993, 1374-1824), `as_constant` (435), `l2norm` (1035), `clip_norm` (1087, of a, its second
argument), `conditional` (1126, 1165, 1204, of the first). -/
def source : Op → List Nat → Option Nat
  | .elem _, a :: _ => some a
  | .asConst, a :: _ => some a
  | .l2norm, a :: _ => some a
  | .clipNorm _, _ :: a :: _ => some a
  | .cond _ _, a :: _ => some a
  | _, _ => none

def sourceOf (nodes : List Node) (n : Nat) : Option Nat :=
  match nodes[n]? with
  | some (.op o args) => source o args
  | _ => none

/-- A new node. -/
def birth (nodes : List Node) (m : Map) (n : Nat) : Map :=
  match sourceOf nodes n with
  | some a => extract n a m
  | none => m

/-- The nodes made by one call, in order. -/
def births (nodes : List Node) (lo hi : Nat) (m : Map) : Map :=
  (List.range' lo (hi - lo)).foldl (birth nodes) m

/-- The operators +, -, *, / on two nodes, elementary.ipp:1423-1440, 1547-1564, 1687-1704, 1828-1845. -/
def dispatch (o : Arith) (ga gb : Option Nat) (a b : Nat) : Ask.Call :=
  match ga, gb with
  | some i, none => .axial o false i a b
  | some i, some j => if i = j then .axial o false i a b else .arith o a b
  | none, some j => .axial o true j a b
  | none, none => .arith o a b

/-- A call of the library, with the metadata of the nodes it makes. -/
noncomputable def exec (env : Expr.Env) (c : Ask.Call) (S : St) : Outcome (Nat × St) :=
  Ask.exec env c S.base >>= fun r => .ok (r.1, ⟨r.2, births r.2.nodes S.base.nodes.length r.2.nodes.length S.data⟩)

/-- `set_metadata`, inode.ipp:93-97. -/
def set (n : Nat) (key : List Char) (v : Nat) (S : St) : Outcome (Nat × St) :=
  if n < S.base.nodes.length then .ok (n, { S with data := fun k q => if k = n ∧ q = key then some v else S.data k q })
  else .ub

inductive Call where
  /-- any function but the four operators on two nodes -/
  | fn (c : Ask.Call)
  /-- the operators on two nodes -/
  | arith (o : Arith) (a b : Nat)
  | set (n : Nat) (key : List Char) (v : Nat)
  /-- the gradient of a reduction along an axis, b being the gradient of its argument, transform.ipp:295-307 -/
  | reduceGrad (axis b : Nat)

noncomputable def step (env : Expr.Env) (c : Call) (S : St) : Outcome (Nat × St) :=
  match c with
  | .fn c => exec env c S
  | .arith o a b => exec env (dispatch o (S.data a groupKey) (S.data b groupKey) a b) S
  | .set n key v => set n key v S
  | .reduceGrad axis b => exec env (.elem .ident b) S >>= fun r => set r.1 groupKey axis r.2

noncomputable def run (fmt : ℝ → List Char) : List (Hash × Call) → St → Outcome St
  | [], S => .ok S
  | (h, c) :: cs, S => step ⟨h, fmt⟩ c S >>= fun r => run fmt cs r.2

def St.init : St := ⟨Ask.St.init, fun _ _ => none⟩

end Meta
end Verif
