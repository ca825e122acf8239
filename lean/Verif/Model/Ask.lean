import Verif.Model.Expr
import Verif.Model.Transform
/-!
# Model of how operators look for an existing node before making one
(app/tenncor/src/graph/operations/operation_utils.ipp, transform.ipp, matmul.ipp, elementary.ipp, shape_dep.ipp)

Nodes are numbered in the order of their construction.  The elementary operators and their axial variants are modelled
from the search for an existing node on: what they do with constant arguments before is in `Model/Expr`.  What a node
computes is told by its operation: which closures it was made with.  Null arguments and the destruction of nodes are not
modelled.  Elements are real numbers.
-/
namespace Verif
namespace Ask
open Expr (K1 Hash)
open scoped Classical

/-- Which of +, -, *, /. -/
inductive Arith where
  | add | sub | mul | div

/-- What a node computes: the function that made it, its parameters and the closures it was given. -/
inductive Op where
  | elem (k : K1)
  | arith (o : Arith)
  | axial (o : Arith) (left : Bool) (axis : Nat)
  | cond (name : List Char) (cmp : ℝ → ℝ → Bool)
  | transpose (i j : Nat)
  | fit
  | extend (i m : Nat)
  | compress (name : List Char) (f : ℝ → ℝ → ℝ) (axis : Option Nat)
  | argCompress (name : List Char) (f : List ℝ → ℝ) (axis : Option Nat)
  | flip (dims : List Nat)
  | cross (i j : Nat)
  | matmul
  | l2norm
  | clipNorm (cap : ℝ)
  | sample (n : ℝ)
  | asConst
  | extract (name : List Char) (f : Shape → Outcome (List Nat))

/-- `<<` on a `size_t`. -/
def dec (n : Nat) : List Char := Nat.toDigits 10 n

def Arith.word : Arith → List Char
  | .add => "add".toList
  | .sub => "sub".toList
  | .mul => "mul".toList
  | .div => "div".toList

/-- `name_axis` or `name`, transform.ipp:197, 359. -/
def withAxis (name : List Char) : Option Nat → List Char
  | none => name
  | some k => name ++ '_' :: dec k

/-- The label of the node, which is also the name it is looked for under (except for `as_constant`, see `exec`).
elementary.ipp:1011 (l2norm), 1062 (clip_l2norm), 1185 (conditional), 1237 (binomial_sample), 1436, 1866-2001 (axial);
transform.ipp:25, 97, 142, 197, 359, 463-469, 511; matmul.ipp:273; const_immutable.ipp:35; `fmt` is how a `T` is printed. -/
def Op.label (fmt : ℝ → List Char) : Op → List Char
  | .elem k => k.label fmt
  | .arith o => o.word
  | .axial o left k => o.word ++ (if left then "_axis_a_".toList else "_axis_b_".toList) ++ dec k
  | .cond name _ => "conditional_".toList ++ name
  | .transpose i j => "transpose_".toList ++ dec i ++ '_' :: dec j
  | .fit => "fit".toList
  | .extend i m => "extend_".toList ++ dec i ++ '_' :: dec m
  | .compress name _ k => withAxis name k
  | .argCompress name _ k => withAxis name k
  | .flip ds => "flip".toList ++ ds.flatMap fun d => '_' :: dec d
  | .cross i j => "cross_conv_".toList ++ dec i ++ '_' :: dec j
  | .matmul => "matmul".toList
  | .l2norm => "l2norm".toList
  | .clipNorm c => "clip_l2norm_".toList ++ fmt c
  | .sample n => "binomial_sample_n".toList ++ fmt n
  | .asConst => "const_immutable".toList
  | .extract name _ => name

inductive Node where
  | leaf
  | const (d : List ℝ)
  | op (o : Op) (args : List Nat)

/-- `asked` records the operations looked for so far (not in the code; for stating theorems). -/
structure St where
  nodes : List Node
  asked : List Op

abbrev M := St → Outcome (Nat × St)

def ret (n : Nat) : M := fun S => .ok (n, S)

def push (nd : Node) : M := fun S => .ok (S.nodes.length, { S with nodes := S.nodes ++ [nd] })

def andThen (x : M) (f : Nat → M) : M := fun S => x S >>= fun r => f r.1 r.2

/-- Node n is labelled l and has a among its arguments. -/
def Listens (fmt : ℝ → List Char) (S : St) (a : Nat) (l : List Char) (n : Nat) : Prop :=
  ∃ o args, S.nodes[n]? = some (.op o args) ∧ a ∈ args ∧ o.label fmt = l

/-- `find_audience`, inode.ipp:75-90, as iterated afterwards. -/
noncomputable def audience (env : Expr.Env) (S : St) (a : Nat) (l : List Char) : List Nat :=
  env.ord S.nodes.length ((List.range S.nodes.length).filter fun n => decide (Listens env.fmt S a l n))

/-- The arguments of a node. -/
def argsOf (S : St) (n : Nat) : List Nat :=
  match S.nodes[n]? with
  | some (.op _ args) => args
  | _ => []

/-- `dynamic_cast<shape_dep<T>*>`. -/
def isExtract (S : St) (n : Nat) : Bool :=
  match S.nodes[n]? with
  | some (.op (.extract _ _) _) => true
  | _ => false

/-- Remember what was looked for. -/
def note (o : Op) (S : St) : St := { S with asked := o :: S.asked }

/-- `unary_parent_search`, operation_utils.ipp:14-23, else a new node made by `mk`. -/
noncomputable def get1 (env : Expr.Env) (o : Op) (a : Nat) (mk : M) : M := fun S =>
  match (audience env S a (o.label env.fmt)).head? with
  | some p => .ok (p, note o S)
  | none => mk (note o S)

/-- `ordered_binary_parent_search` and `unordered_binary_parent_search`, operation_utils.ipp:25-63, else a new node. -/
noncomputable def get2 (env : Expr.Env) (o : Op) (unordered : Bool) (a b : Nat) : M := fun S =>
  match (audience env S a (o.label env.fmt)).find? fun p => decide (argsOf S p = [a, b] ∨ (unordered = true ∧ argsOf S p = [b, a])) with
  | some p => .ok (p, note o S)
  | none => push (.op o [a, b]) (note o S)

/-- `shape_dep<T>::get`, shape_dep.ipp:17-44. -/
noncomputable def getExtract (env : Expr.Env) (name : List Char) (f : Shape → Outcome (List Nat)) (args : List Nat) : M := fun S =>
  match args with
  | [] => .abort
  | a :: _ =>
    match (audience env S a name).find? fun p => isExtract S p && decide (argsOf S p = args) with
    | some p => .ok (p, note (.extract name f) S)
    | none => push (.op (.extract name f) args) (note (.extract name f) S)

/-- `dynamic_cast<constant<T>*>` and `expose`. -/
def constData (S : St) (a : Nat) : Option (List ℝ) :=
  match S.nodes[a]? with
  | some (.const d) => some d
  | _ => none

/-- A node labelled l with one argument: that argument, transform.ipp:27-34. -/
noncomputable def undo (fmt : ℝ → List Char) (S : St) (l : List Char) (a : Nat) : Option Nat :=
  match S.nodes[a]? with
  | some (.op o [c]) => if o.label fmt = l then some c else none
  | _ => none

/-- `transpose`, transform.ipp:16-38. -/
noncomputable def transpose (env : Expr.Env) (i j a : Nat) : M := fun S =>
  let o := Op.transpose (min i j) (max i j)
  match undo env.fmt S (o.label env.fmt) a with
  | some c => ret c (note o S)
  | none => get1 env o a (push (.op o [a])) S

/-- The transposed argument in `matmul`, matmul.ipp:248-271. -/
noncomputable def transposed (env : Expr.Env) (a : Nat) : M := fun S =>
  match (audience env S a ((Op.transpose 0 1).label env.fmt)).head? with
  | some p => .ok (p, note (.transpose 0 1) S)
  | none => transpose env 0 1 a S

/-- `l2norm`, elementary.ipp:998-1015. -/
noncomputable def l2norm (env : Expr.Env) (a : Nat) : M := fun S =>
  match constData S a with
  | some d => push (.const [(d.map fun x => x * x).sum]) S
  | none => get1 env .l2norm a (push (.op .l2norm [a])) S

/-- The constant case of `clip_norm`, elementary.ipp:1044-1060. -/
noncomputable def clipData (cap : ℝ) (d : List ℝ) : List ℝ :=
  d.map fun x => if (d.map fun x => x * x).sum > cap then x * cap / (d.map fun x => x * x).sum else x

/-- Which of the binary operators look for their arguments in either order: `add_helper`, `mul_helper`,
elementary.ipp:195, 292. -/
def Arith.unordered : Arith → Bool
  | .add => true
  | .mul => true
  | _ => false

/-- The lambdas of `reduce_sum`, `reduce_max`, `arg_max`, transform.ipp:311-329, 450-458. -/
noncomputable def sumOf (x y : ℝ) : ℝ := x + y
noncomputable def maxOf (x y : ℝ) : ℝ := max x y
noncomputable def argMaxOf (d : List ℝ) : ℝ := ((Transform.maxElement (fun x y : ℝ => decide (x < y)) d : Nat) : ℝ)

/-- The lambdas of `reduce_mean`, transform.ipp:336-341, 345-350. -/
def axisSize (k : Nat) (s : Shape) : Outcome (List Nat) :=
  match s[k]? with
  | some v => .ok [v]
  | none => .ub
def allSize (s : Shape) : Outcome (List Nat) := .ok [Shape.nElems s]

/-- The helpers on one node twice, elementary.ipp:221-224, 271-274, 321-324; `add_helper` has no such case. -/
noncomputable def onSame (env : Expr.Env) (o : Arith) (a : Nat) (add : Op) : M :=
  match o with
  | .add => get2 env add true a a
  | .sub => push (.const [0])
  | .mul => get1 env (.elem (.pow 2)) a (push (.op (.elem (.pow 2)) [a]))
  | .div => push (.const [1])

/-- Calls of the library. -/
inductive Call where
  | leaf
  | const (d : List ℝ)
  | elem (k : K1) (a : Nat)
  | arith (o : Arith) (a b : Nat)
  | axial (o : Arith) (left : Bool) (axis a b : Nat)
  | cond (name : List Char) (cmp : ℝ → ℝ → Bool) (a b : Nat)
  | transpose (i j a : Nat)
  | fit (a watch : Nat)
  | extend (i m a : Nat)
  | compress (name : List Char) (f : ℝ → ℝ → ℝ) (axis : Option Nat) (a : Nat)
  | argCompress (name : List Char) (f : List ℝ → ℝ) (axis : Option Nat) (a : Nat)
  | mean (axis : Option Nat) (a : Nat)
  | flip (dims : List Nat) (a : Nat)
  | cross (i j a b : Nat)
  | conv (i j a b : Nat)
  | matmul (ta tb : Bool) (a b : Nat)
  | l2norm (a : Nat)
  | clipNorm (cap : ℝ) (a : Nat)
  | sample (n : ℝ) (a : Nat)
  | asConst (a : Nat)
  | extract (name : List Char) (f : Shape → Outcome (List Nat)) (args : List Nat)

def Call.args : Call → List Nat
  | .leaf => []
  | .const _ => []
  | .elem _ a => [a]
  | .arith _ a b => [a, b]
  | .axial _ _ _ a b => [a, b]
  | .cond _ _ a b => [a, b]
  | .transpose _ _ a => [a]
  | .fit a b => [a, b]
  | .extend _ _ a => [a]
  | .compress _ _ _ a => [a]
  | .argCompress _ _ _ a => [a]
  | .mean _ a => [a]
  | .flip _ a => [a]
  | .cross _ _ a b => [a, b]
  | .conv _ _ a b => [a, b]
  | .matmul _ _ a b => [a, b]
  | .l2norm a => [a]
  | .clipNorm _ a => [a]
  | .sample _ a => [a]
  | .asConst a => [a]
  | .extract _ _ args => args

/-- One call on existing nodes.  `elem`, `arith`, `axial`, `cond`: the end of the functions of elementary.ipp (from
`opname` on, after `onSame`).  `fit`: transform.ipp:89-101; `extend`: 136-147;
`compress`, `reduce_sum`, `reduce_max`: 192-201, 310-329; `reduce_mean`: 330-352, the quotient by
`ordered_binary_parent_search`; `arg_compress`, `arg_max`: 354-363, 449-458; `flip`: 460-475; `cross_corr2d`: 505-515;
`conv2d`: 561-566; `matmul`: matmul.ipp:244-277; `clip_norm`: elementary.ipp:1039-1067 (`assert(cap > 0)`; the arguments
of the new node are `l2norm(a)` and a); `binomial_sample (T n, varptr p)`: 1221-1241 (a constant p: the vector written to
is made with no elements); `as_constant`: 425-437, which looks for "constant_immutable" but makes "const_immutable". -/
noncomputable def body (env : Expr.Env) : Call → M
  | .leaf => push .leaf
  | .const d => push (.const d)
  | .elem k a => get1 env (.elem k) a (push (.op (.elem k) [a]))
  | .arith o a b => if a = b then onSame env o a (.arith o) else get2 env (.arith o) o.unordered a b
  | .axial o left k a b => if a = b then onSame env o a (.axial o left k) else get2 env (.axial o left k) o.unordered a b
  | .cond name cmp a b => get2 env (.cond name cmp) false a b
  | .transpose i j a => transpose env i j a
  | .fit a b => fun S => if constData S a = some [0] then ret a S else get2 env .fit false a b S
  | .extend i m a =>
    if m = 0 then push (.const [0])
    else if m = 1 then ret a
    else get1 env (.extend i m) a (push (.op (.extend i m) [a]))
  | .compress name f k a => get1 env (.compress name f k) a (push (.op (.compress name f k) [a]))
  | .argCompress name f k a => get1 env (.argCompress name f k) a (push (.op (.argCompress name f k) [a]))
  | .mean (some k) a =>
    andThen (getExtract env ("axis_".toList ++ dec k ++ "_size".toList) (axisSize k) [a]) fun d =>
    andThen (get1 env (.compress "reduce_sum".toList sumOf (some k)) a (push (.op (.compress "reduce_sum".toList sumOf (some k)) [a]))) fun s =>
    get2 env (.arith .div) false s d
  | .mean none a =>
    andThen (getExtract env "shape_nelems".toList allSize [a]) fun d =>
    andThen (get1 env (.compress "reduce_sum".toList sumOf none) a (push (.op (.compress "reduce_sum".toList sumOf none) [a]))) fun s =>
    get2 env (.arith .div) false s d
  | .flip ds a => get1 env (.flip ds) a (push (.op (.flip ds) [a]))
  | .cross i j a b => get2 env (.cross i j) false a b
  | .conv i j a b => andThen (get1 env (.flip [i, j]) b (push (.op (.flip [i, j]) [b]))) fun f => get2 env (.cross i j) false a f
  | .matmul ta tb a b =>
    andThen (if ta then transposed env a else ret a) fun a' =>
    andThen (if tb then transposed env b else ret b) fun b' => get2 env .matmul false a' b'
  | .l2norm a => l2norm env a
  | .clipNorm c a =>
    if 0 < c then fun S =>
      match constData S a with
      | some d => push (.const (clipData c d)) S
      | none => get1 env (.clipNorm c) a (andThen (l2norm env a) fun l => push (.op (.clipNorm c) [l, a])) S
    else fun _ => .abort
  | .sample n a => fun S =>
    match constData S a with
    | some d => if d = [] then push (.const []) S else .ub
    | none => get1 env (.sample n) a (push (.op (.sample n) [a])) S
  | .asConst a => fun S =>
    match (audience env S a "constant_immutable".toList).head? with
    | some p => .ok (p, note .asConst S)
    | none => push (.op .asConst [a]) (note .asConst S)
  | .extract name f args => getExtract env name f args

noncomputable def exec (env : Expr.Env) (c : Call) : M := fun S =>
  if ∀ a ∈ c.args, a < S.nodes.length then body env c S else .ub

/-- A history of calls, each with its own iteration orders. -/
noncomputable def run (fmt : ℝ → List Char) : List (Hash × Call) → St → Outcome St
  | [], S => .ok S
  | (h, c) :: cs, S => exec ⟨h, fmt⟩ c S >>= fun r => run fmt cs r.2

def St.init : St := ⟨[], []⟩

end Ask
end Verif
