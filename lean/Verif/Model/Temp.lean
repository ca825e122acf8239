import Verif.Model.Expr
/-!
# Model of differentiation with respect to an operation
(app/tenncor/src/graph/connector/immutable/base_immutable.ipp, src/graph/connector/iconnector.ipp)

The nodes, states and simplifications are those of `Model/Expr`: operators acting element by element, no
grouping metadata, no Jacobians, no destroyed nodes.  The life of the clones (`add_ondeath_dependent`,
base_immutable.ipp:291) is not modelled.
-/
namespace Verif
namespace Expr

/-- `dynamic_cast<iconnector<T>*>`, and `dynamic_cast<base_immutable<T>*>`: every operation here is one. -/
def Node.isOp : Node → Bool
  | .leaf _ => false
  | .const _ => false
  | .un _ _ => true
  | .bin _ _ _ => true

def isOp (S : St) (n : Nat) : Bool :=
  match S.nodes[n]? with
  | some nd => nd.isOp
  | none => false

/-- `update_graph`, iconnector.ipp:283-299: a new operation `n` joins the graph of its first argument that is an
operation, which then consumes the graphs of the others (`consume`, iconnector.ipp:435-451); with none, it gets a
graph of its own.  A graph is named after the operation it was made for. -/
def joinGraph (f : Nat → Nat) (n : Nat) : List Nat → Nat → Nat
  | [] => fun m => if m = n then n else f m
  | c :: rest => fun m => if m = n then f c else if f m ∈ rest.map f then f c else f m

/-- `g_man_` of every operation after the first `k` nodes have been built. -/
def graphs (nodes : List Node) : Nat → Nat → Nat
  | 0 => fun m => m
  | k + 1 =>
    match nodes[k]? with
    | some nd => if nd.isOp then joinGraph (graphs nodes k) k (nd.args.filter (fun a => decide (∃ b ∈ nodes[a]?, b.isOp = true)))
        else graphs nodes k
    | none => graphs nodes k

/-- `is_same_graph`, iconnector.ipp:126-129. -/
def sameGraph (S : St) (a b : Nat) : Bool :=
  decide (graphs S.nodes S.nodes.length a = graphs S.nodes S.nodes.length b)

/-- `get_leaves`, base_immutable.ipp:108-117: the keys of `gcache_` (C33). -/
def leavesOf (S : St) (n : Nat) : List Nat := (List.range S.nodes.length).filter (fun x => reaches S x (n + 1) n)

/-- `potential_descendent`, iconnector.ipp:131-147. -/
def potential (S : St) (n target : Nat) : Bool :=
  if (leavesOf S n).length < (leavesOf S target).length then false
  else (leavesOf S target).all (fun x => (leavesOf S n).contains x)

/-- A computation that also passes `constant<T>*& base` around. -/
abbrev MB := Option Nat × St → Outcome (Nat × Option Nat × St)

/-- Lines 264-272 of base_immutable.ipp: the constant 1 standing for the target, made on first use. -/
def getBase : MB := fun p =>
  match p.1 with
  | some b => .ok (b, some b, p.2)
  | none => mkConst [1] p.2 >>= fun r => .ok (r.1, some r.1, r.2)

/-- `arg_clone` (immutable.ipp:114-122) followed by lines 289-292 of base_immutable.ipp. -/
def argClone (nd : Node) : MB := fun p => push nd p.2 >>= fun r => .ok (r.1, p.1, r.2)

/-- One argument, base_immutable.ipp:277-287: `rec` is the recursive call. -/
def tempArg (rec : Nat → MB) (target a : Nat) : MB := fun p =>
  if isOp p.2 a && potential p.2 a target then rec a p else .ok (a, p.1, p.2)

/-- `temp_eval_helper`, base_immutable.ipp:261-293.  The first argument bounds the depth of the recursion. -/
def tempEval (target : Nat) : Nat → Nat → MB
  | 0, _ => fun _ => .abort
  | fuel + 1, n => fun p =>
    if n = target then getBase p
    else match p.2.nodes[n]? with
      | some (.un k a) => tempArg (tempEval target fuel) target a p >>= fun r => argClone (.un k r.1) r.2
      | some (.bin k a b) => tempArg (tempEval target fuel) target a p >>= fun r =>
          tempArg (tempEval target fuel) target b r.2 >>= fun s => argClone (.bin k r.1 s.1) s.2
      | _ => .abort

/-- `y->derive(t)` for an operation `t`: base_immutable.ipp:51-84 with `temporary_eval`, 86-95 (the update of the
clone it ends with only fills its value); ivariable.ipp:59-67 and constant.ipp:44-48 when `y` is a leaf. -/
def deriveOp (y t : Nat) : M := fun S =>
  if y = t then ret 1 S
  else if isOp S y && isOp S t && sameGraph S y t then
    tempEval t (y + 1) y (none, S) >>= fun r => .ok (r.1, r.2.2)
  else ret 0 S

/-- Several such derivations one after the other. -/
def runOps : List (Nat × Nat) → St → Outcome St
  | [], S => .ok S
  | p :: ps, S =>
    if p.1 < S.nodes.length ∧ isOp S p.2 = true then deriveOp p.1 p.2 S >>= fun r => runOps ps r.2 else .ub

end Expr
end Verif
