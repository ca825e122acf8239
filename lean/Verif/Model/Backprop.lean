import Verif.Model.Expr
import Verif.Model.Elementary
import Verif.Model.Matmul
import Verif.Model.Transform
/-!
# Model of differentiation through matrix products
(app/tenncor/src/graph/operations/matmul.ipp, elementary.ipp, transform.ipp,
src/graph/connector/iconnector.ipp, immutable/immutable.ipp, immutable/base_immutable.ipp)

Nodes are identified with the terms that build them: constructing an operation twice on the same arguments finds
the existing node (C35), so equal nodes are equal terms.  Elements are real numbers.  Constants have one element;
constants with more elements are treated like placeholders.  The gradient node of a reduction along an axis carries
the metadata "grouping"; the identity node that carries it is shared by all reductions of the same gradient in the
code and would be overwritten, terms keep them apart.
-/
namespace Verif
namespace Backprop
open Expr
open scoped Classical

/-- A leaf: `variable` (trainable) or not. -/
structure Leaf where
  trainable : Bool
  id : Nat
deriving DecidableEq

inductive Term where
  | leaf (l : Leaf)
  | const (c : ℝ)
  | un (k : K1) (a : Term)
  | bin (k : K2) (a b : Term)
  /-- `matmul` with the flags `transposeA`, `transposeB`; the arguments are the ones after transposition -/
  | mm (fa fb : Bool) (a b : Term)
  /-- `add_axial_b(a, b, 1)` -/
  | axial (a b : Term)
  /-- `transpose(a, {0, 1})` -/
  | tr (a : Term)
  /-- `reduce_sum(a, 1)` -/
  | rsum (a : Term)
  /-- `reduce_sum(a, 0)` -/
  | sum0 (a : Term)
  /-- `reduce_max(a, 0)` -/
  | max0 (a : Term)
  /-- `reduce_sum(a)` -/
  | sumAll (a : Term)
  /-- the node "shape_nelems" of `reduce_mean(a)`, transform.ipp:344-349 -/
  | nelems (a : Term)
  /-- the identity node over `a` with metadata "grouping" = `axis`, transform.ipp:295-307 -/
  | grp (axis : Nat) (a : Term)
  /-- `add_axial_a`, `add_axial_b`, `sub_axial_a` … of two nodes along `axis` (other than `axial`) -/
  | binAx (k : K2) (axis : Nat) (left : Bool) (a b : Term)
  /-- `l2norm(a)`, elementary.ipp:998-1037 -/
  | l2 (a : Term)
  /-- `clip_norm(a, cap)`, elementary.ipp:1040-1089; its arguments are the nodes `l2norm(a)` and `a` -/
  | clipn (cap : ℝ) (a : Term)

/-- `get_leaves` (C33): is variable `v` among them? -/
def uses (v : Nat) : Term → Bool
  | .leaf l => decide (l = ⟨true, v⟩)
  | .const _ => false
  | .un _ a => uses v a
  | .bin _ a b => uses v a || uses v b
  | .mm _ _ a b => uses v a || uses v b
  | .axial a b => uses v a || uses v b
  | .tr a => uses v a
  | .rsum a => uses v a
  | .sum0 a => uses v a
  | .max0 a => uses v a
  | .sumAll a => uses v a
  | .nelems a => uses v a
  | .grp _ a => uses v a
  | .binAx _ _ _ a b => uses v a || uses v b
  | .l2 a => uses v a
  | .clipn _ a => uses v a

/-- `get_metadata("grouping")`, inode.ipp:93-125: set on the gradients of reductions; the unary and scalar operations
and `conditional` take it over from their (first) argument by `extract_metadata`. -/
def grouping : Term → Option Nat
  | .grp axis _ => some axis
  | .un _ a => grouping a
  | .bin (.cond _ _) a _ => grouping a
  | .l2 a => grouping a
  | .clipn _ a => grouping a
  | _ => none

/-! Operators, as in Verif.Model.Expr (same lines), on terms. -/

/-- As `Expr.unop`. -/
noncomputable def unop (k : K1) : Term → Term
  | .const c => .const (k.fn c)
  | a => .un k a

/-- Unary `operator -`, elementary.ipp:475-518. -/
noncomputable def neg : Term → Term
  | .const c => .const (-c)
  | .un .neg a => a
  | a => .un .neg a

/-- `pow`, elementary.ipp:904-948. -/
noncomputable def pow (a : Term) (s : ℝ) : Term :=
  if s = 0 then .const 1 else if s = 1 then a else unop (.pow s) a

/-- `operator + (T, varptr)`, elementary.ipp:1331-1372. -/
noncomputable def addL (c : ℝ) (b : Term) : Term := if c = 0 then b else unop (.addL c) b

/-- `operator + (varptr, T)`, elementary.ipp:1374-1413. -/
noncomputable def addR : Term → ℝ → Term
  | .const d, c => .const (d + c)
  | a, c => if c = 0 then a else .un (.addR c) a

/-- `operator - (T, varptr)`, elementary.ipp:1455-1496. -/
noncomputable def subL (c : ℝ) (b : Term) : Term := if c = 0 then neg b else unop (.subL c) b

/-- `operator - (varptr, T)`, elementary.ipp:1498-1537. -/
noncomputable def subR : Term → ℝ → Term
  | .const d, c => .const (d - c)
  | a, c => if c = 0 then a else .un (.subR c) a

/-- `operator * (T, varptr)`, elementary.ipp:1579-1627. -/
noncomputable def mulL (c : ℝ) : Term → Term
  | .const d => .const (c * d)
  | b => if 0 = c then .const 0 else if 1 = c then b else if -1 = c then neg b else .un (.mulL c) b

/-- `operator * (varptr, T)`, elementary.ipp:1629-1675. -/
noncomputable def mulR : Term → ℝ → Term
  | .const d, c => .const (d * c)
  | a, c => if 0 = c then .const 0 else if 1 = c then a else if -1 = c then neg a else .un (.mulR c) a

/-- `operator / (T, varptr)`, elementary.ipp:1721-1772. -/
noncomputable def divL (c : ℝ) : Term → Outcome Term
  | .const d => if d = 0 then .throw .logicError else .ok (.const (c / d))
  | b => .ok (if c = 0 then .const 0 else .un (.divL c) b)

/-- `operator / (varptr, T)`, elementary.ipp:1774-1820. -/
noncomputable def divR : Term → ℝ → Outcome Term
  | .const d, c => .ok (.const (d / c))
  | a, c => if c = 0 then .throw .logicError else .ok (if c = 1 then a else .un (.divR c) a)

/-- The node of `add_axial_a` (`left`), `add_axial_b` and so on, elementary.ipp:1862-2016. -/
def axialNode (k : K2) (axis : Nat) (left : Bool) (a b : Term) : Term :=
  match k, axis, left with
  | .add, 1, false => .axial a b
  | k, axis, left => .binAx k axis left a b

/-- The node `operator +` and so on build when no argument is a constant: the element-wise operation, or the one along
the axis that an argument is grouped by; elementary.ipp:1427-1439, 1551-1563, 1691-1703, 1832-1844. -/
def node2 (k : K2) (a b : Term) : Term :=
  match grouping a, grouping b with
  | none, none => .bin k a b
  | some x, none => axialNode k x false a b
  | some x, some y => if x = y then axialNode k x false a b else .bin k a b
  | none, some y => axialNode k y true a b

/-- `operator +`, elementary.ipp:1424-1453, with `add_helper`, 168-212. -/
noncomputable def add : Term → Term → Term
  | .const x, b => if x = 0 then b else addL x b
  | a, .const y => if y = 0 then a else addR a y
  | a, b => node2 .add a b

/-- `operator -`, elementary.ipp:1548-1577, with `sub_helper`, 214-262. -/
noncomputable def sub (a b : Term) : Term :=
  if a = b then .const 0
  else match a, b with
    | .const x, b => if x = 0 then neg b else subL x b
    | a, .const y => if y = 0 then a else subR a y
    | a, b => node2 .sub a b

/-- `operator *`, elementary.ipp:1688-1716, with `mul_helper`, 264-312. -/
noncomputable def mul (a b : Term) : Term :=
  if a = b then pow a 2
  else match a, b with
    | .const x, b => if x = 0 then .const 0 else mulL x b
    | a, .const y => if y = 0 then .const 0 else mulR a y
    | a, b => node2 .mul a b

/-- `operator /`, elementary.ipp:1829-1860, with `div_helper`, 314-363. -/
noncomputable def div (a b : Term) : Outcome Term :=
  if a = b then .ok (.const 1)
  else match a, b with
    | .const x, b => if x = 0 then .ok (.const 0) else divL x b
    | a, .const y => if y = 0 then .throw .logicError else divR a y
    | a, b => .ok (node2 .div a b)

/-- `left == right`, elementary.ipp:1211. -/
noncomputable def eqCmp (x y : ℝ) : Bool := decide (x = y)

/-- `conditional`, elementary.ipp:1092-1206. -/
noncomputable def cond (name : List Char) (cmp : ℝ → ℝ → Bool) : Term → Term → Term
  | .const x, b => unop (.condL name cmp x) b
  | a, .const y => unop (.condR name cmp y) a
  | a, b => .bin (.cond name cmp) a b

/-- `add_axial_b(a, b, 1)`, elementary.ipp:1881-1896, through `add_helper`. -/
noncomputable def addAxial : Term → Term → Term
  | .const x, b => if x = 0 then b else addL x b
  | a, .const y => if y = 0 then a else addR a y
  | a, b => .axial a b

/-- `add_axial_a`, `add_axial_b` along `axis`, elementary.ipp:1863-1896, through `add_helper`. -/
noncomputable def addAx (axis : Nat) (left : Bool) : Term → Term → Term
  | .const x, b => if x = 0 then b else addL x b
  | a, .const y => if y = 0 then a else addR a y
  | a, b => axialNode .add axis left a b

/-- `sub_axial_a`, `sub_axial_b`, elementary.ipp:1898-1932, through `sub_helper`. -/
noncomputable def subAx (axis : Nat) (left : Bool) (a b : Term) : Term :=
  if a = b then .const 0
  else match a, b with
    | .const x, b => if x = 0 then neg b else subL x b
    | a, .const y => if y = 0 then a else subR a y
    | a, b => axialNode .sub axis left a b

/-- `mul_axial_a`, `mul_axial_b`, elementary.ipp:1934-1974, through `mul_helper`. -/
noncomputable def mulAx (axis : Nat) (left : Bool) (a b : Term) : Term :=
  if a = b then pow a 2
  else match a, b with
    | .const x, b => if x = 0 then .const 0 else mulL x b
    | a, .const y => if y = 0 then .const 0 else mulR a y
    | a, b => axialNode .mul axis left a b

/-- `transpose(a, {0, 1})`, transform.ipp:16-88: a transposed node gives back its argument. -/
def transpose : Term → Term
  | .tr a => a
  | a => .tr a

/-- `matmul`, matmul.ipp:244-280.  (A product of the same two nodes built earlier with other flags would be found
and returned with its flags; terms keep them apart.) -/
def matmul (a b : Term) (fa fb : Bool) : Term :=
  .mm fa fb (if fa then transpose a else a) (if fb then transpose b else b)

/-- `l2norm`, elementary.ipp:998-1037: a constant gives the sum of its squares. -/
noncomputable def l2norm : Term → Term
  | .const c => .const (c * c)
  | a => .l2 a

/-- `clip_norm`, elementary.ipp:1040-1089. -/
noncomputable def clipNorm (cap : ℝ) : Term → Outcome Term
  | .const c => if cap > 0 then .ok (.const (if c * c > cap then c * cap / (c * c) else c)) else .abort
  | a => if cap > 0 then .ok (.clipn cap a) else .abort

/-- Gradient closures of the unary operations, as `Expr.ginit1`. -/
noncomputable def ginit1 : K1 → Term → Term → Outcome Term
  | .ident, _, g => .ok g
  | .neg, _, g => .ok (neg g)
  | .abs, _, g => .ok (match g with | .const c => .const |c| | g => .un .abs g)
  | .sin, a, g => .ok (mul g (unop .cos a))
  | .cos, a, g => .ok (mul (neg g) (unop .sin a))
  | .tan, a, g => div g (mul (unop .cos a) (unop .cos a))
  | .csc, a, g => div (neg g) (mul (unop .sin a) (unop .tan a))
  | .sec, a, g => div (mul g (unop .tan a)) (unop .cos a)
  | .cot, a, g => .ok (mul (mul (neg g) (unop .csc a)) (unop .csc a))
  | .exp, a, g => .ok (mul g (unop .exp a))
  | .sqrt, a, g => div g (mulL 2 (unop .sqrt a))
  | .round, _, g => .ok (unop .round g)
  | .log, a, g => div g a
  | .pow s, a, g => .ok (mul (mulL s g) (pow a (s - 1)))
  | .clip lo hi, a, g => .ok (mul g (if lo > hi then unop (.clip hi lo) a else unop (.clip lo hi) a))
  | .addL _, _, g => .ok g
  | .addR _, _, g => .ok g
  | .subL _, _, g => .ok (neg g)
  | .subR _, _, g => .ok g
  | .mulL c, _, g => .ok (mulL c g)
  | .mulR c, _, g => .ok (mulL c g)
  | .divL c, b, g => div (mulL (-c) g) (mul b b)
  | .divR c, _, g => divR g c
  | .condL name cmp _, _, g => .ok (unop (.condL name cmp 0) g)
  | .condR name cmp _, _, g => .ok (unop (.condR name cmp 0) g)

/-- Gradient closures of the binary operations, as `Expr.ginit2`. -/
noncomputable def ginit2 : K2 → Term → Term → Term → Term → Outcome Term
  | .add, _, _, ag, bg => .ok (add ag bg)
  | .sub, _, _, ag, bg => .ok (sub ag bg)
  | .mul, a, b, ag, bg => .ok (add (mul ag b) (mul bg a))
  | .div, a, b, ag, bg => div (sub (mul ag b) (mul bg a)) (mul b b)
  | .cond name cmp, _, _, ag, bg => .ok (cond name cmp ag bg)

/-- Gradient closures of the operations along an axis, elementary.ipp:1874-1879, 1891-1896, 1909-1914, 1926-1931,
1943-1951, 1964-1972, 1985-1993, 2006-2014. -/
noncomputable def ginitAx (axis : Nat) (left : Bool) : K2 → Term → Term → Term → Term → Outcome Term
  | .add, _, _, ag, bg => .ok (addAx axis left ag bg)
  | .sub, _, _, ag, bg => .ok (subAx axis left ag bg)
  | .mul, a, b, ag, bg => .ok (add (mulAx axis left ag b) (mulAx axis left a bg))
  | .div, a, b, ag, bg => div (sub (mulAx axis left ag b) (mulAx axis (!left) bg a)) (pow b 2)
  | .cond _ _, _, _, _, _ => .ub

/-- `JList`, iconnector.ipp:344-351: a unique number (the node that made the list stands for it), the transfer
functions with the gradients of their node's arguments filled in, and the flag. -/
structure Jac where
  uid : Term
  list : List (Term → Outcome Term)
  terminal : Bool

/-- What a node knows for one variable: its gradient node and `jacobians_[leaf]`. -/
structure Info where
  grad : Outcome Term
  jac : Option Jac

/-- `jacobian_call`, iconnector.ipp:271-296: the list from the back to the front. -/
def jacobianCall : List (Term → Outcome Term) → Term → Outcome Term
  | [], root => .ok root
  | f :: fs, root => jacobianCall fs root >>= f

def Info.list (i : Info) : List (Term → Outcome Term) :=
  match i.jac with
  | some j => j.list
  | none => []

/-- `derive(variable)`, base_immutable.ipp:61-67. -/
def Info.derive (i : Info) : Outcome Term := i.grad >>= fun g => jacobianCall i.list g

/-- Taking over an argument's list, iconnector.ipp:214-222. -/
def inherit (j : Jac) : Option Jac := if j.list.isEmpty then none else some { j with terminal := false }

def inherit1 : Option Jac → Option Jac
  | some j => inherit j
  | none => none

/-- The constructor's loop over two different arguments, iconnector.ipp:203-233. -/
noncomputable def inherit2 (ja jb : Option Jac) : Option Jac :=
  match inherit1 ja, inherit1 jb with
  | none, jb => jb
  | some ja, none => some ja
  | some ja, some jb => if ja.uid = jb.uid then some ja else some { ja with list := [], terminal := true }

/-- … over the set of arguments. -/
noncomputable def inheritArgs (a b : Term) (ja jb : Option Jac) : Option Jac :=
  if a = b then inherit1 ja else inherit2 ja jb

def isTerminal : Option Jac → Bool
  | some j => j.terminal
  | none => false

/-- The argument's gradient as `backward_pass` takes it, immutable.ipp:183-190. -/
def argGrad (j : Option Jac) (i : Info) : Outcome Term := if isTerminal j then i.derive else i.grad

/-- `set_jacobian_back`, iconnector.ipp:162-169. -/
def pushBack (this : Term) (f : Term → Outcome Term) : Option Jac → Jac
  | some j => { j with list := j.list ++ [f] }
  | none => ⟨this, [f], false⟩

/-- `set_jacobian_front`, iconnector.ipp:153-160. -/
def pushFront (this : Term) (f : Term → Outcome Term) : Option Jac → Jac
  | some j => { j with list := f :: j.list }
  | none => ⟨this, [f], false⟩

/-- The constant zero, matmul.ipp:339-341. -/
def isZero : Term → Prop
  | .const c => c = 0
  | _ => False

/-- The closure of `matmul`, matmul.ipp:331-354, given the gradients of its arguments. -/
noncomputable def mmJacobian (fa fb : Bool) (a b : Term) (ga gb : Outcome Term) (root : Term) : Outcome Term :=
  ga >>= fun ga => gb >>= fun gb =>
  if isZero ga ∧ isZero gb then .ok root
  else .ok (add (mul (if fa then transpose (matmul root b false true) else matmul root b false true) ga)
    (mul (if fb then transpose (matmul a root true false) else matmul a root true false) gb))

/-- The closure of `axial_set_jacobian`, elementary.ipp:379-383. -/
def axialJacobian (root : Term) : Outcome Term := .ok (.rsum root)

/-- … along another axis. -/
def axJacobian (axis : Nat) (root : Term) : Outcome Term := .ok (if axis = 0 then .sum0 root else .rsum root)

/-- `get_gradient(leaf)` (base_immutable.ipp:219-232, `backward_pass` immutable.ipp:175-194) and `jacobians_` of a
node for variable `v`. -/
noncomputable def info (v : Nat) : Term → Info
  | .leaf l => ⟨.ok (.const (if l = ⟨true, v⟩ then 1 else 0)), none⟩
  | .const _ => ⟨.ok (.const 0), none⟩
  | .un k a =>
    ⟨if uses v a then (info v a).grad >>= ginit1 k a else .ok (.const 0), inherit1 (info v a).jac⟩
  | .bin k a b =>
    ⟨if uses v a || uses v b then
        argGrad (inheritArgs a b (info v a).jac (info v b).jac) (info v a) >>= fun ga =>
        argGrad (inheritArgs a b (info v a).jac (info v b).jac) (info v b) >>= fun gb => ginit2 k a b ga gb
      else .ok (.const 0),
     inheritArgs a b (info v a).jac (info v b).jac⟩
  | .mm fa fb a b =>
    ⟨if uses v a || uses v b then
        argGrad (inheritArgs a b (info v a).jac (info v b).jac) (info v a) >>= fun _ =>
        argGrad (inheritArgs a b (info v a).jac (info v b).jac) (info v b) >>= fun _ =>
        .ok (cond "eq".toList eqCmp (.mm fa fb a b) (.mm fa fb a b))
      else .ok (.const 0),
     if uses v a || uses v b then
        some (pushBack (.mm fa fb a b) (mmJacobian fa fb a b (info v a).grad (info v b).grad)
          (inheritArgs a b (info v a).jac (info v b).jac))
      else inheritArgs a b (info v a).jac (info v b).jac⟩
  | .axial a b =>
    ⟨if uses v a || uses v b then
        argGrad (inheritArgs a b (info v a).jac (info v b).jac) (info v a) >>= fun ga =>
        argGrad (inheritArgs a b (info v a).jac (info v b).jac) (info v b) >>= fun gb => .ok (addAxial ga gb)
      else .ok (.const 0),
     if uses v b then some (pushFront (.axial a b) axialJacobian (inheritArgs a b (info v a).jac (info v b).jac))
      else inheritArgs a b (info v a).jac (info v b).jac⟩
  | .tr a =>
    ⟨if uses v a then (info v a).grad >>= fun g => .ok (transpose g) else .ok (.const 0), inherit1 (info v a).jac⟩
  | .rsum a =>
    ⟨if uses v a then (info v a).grad >>= fun g => .ok (.grp 1 g) else .ok (.const 0), inherit1 (info v a).jac⟩
  | .sum0 a =>
    ⟨if uses v a then (info v a).grad >>= fun g => .ok (.grp 0 g) else .ok (.const 0), inherit1 (info v a).jac⟩
  | .max0 a =>
    ⟨if uses v a then (info v a).grad >>= fun g => .ok (.grp 0 g) else .ok (.const 0), inherit1 (info v a).jac⟩
  | .sumAll a =>
    ⟨if uses v a then (info v a).grad else .ok (.const 0), inherit1 (info v a).jac⟩
  -- shape_dep.ipp:145-149; the constructor, 83-92, clears `jacobians_`
  | .nelems _ => ⟨.ok (.const 0), none⟩
  | .grp _ a => ⟨if uses v a then (info v a).grad else .ok (.const 0), inherit1 (info v a).jac⟩
  | .binAx k axis left a b =>
    ⟨if uses v a || uses v b then
        argGrad (inheritArgs a b (info v a).jac (info v b).jac) (info v a) >>= fun ga =>
        argGrad (inheritArgs a b (info v a).jac (info v b).jac) (info v b) >>= fun gb => ginitAx axis left k a b ga gb
      else .ok (.const 0),
     if uses v (if left then a else b) then
        some (pushFront (.binAx k axis left a b) (axJacobian axis) (inheritArgs a b (info v a).jac (info v b).jac))
      else inheritArgs a b (info v a).jac (info v b).jac⟩

  | .l2 a =>
    ⟨if uses v a then (info v a).grad >>= fun g => .ok (l2norm g) else .ok (.const 0), inherit1 (info v a).jac⟩
  | .clipn cap a =>
    ⟨if uses v a then
        argGrad (inherit2 (inherit1 (info v a).jac) (info v a).jac)
          ⟨(info v a).grad >>= fun g => .ok (l2norm g), inherit1 (info v a).jac⟩ >>= fun gl =>
        argGrad (inherit2 (inherit1 (info v a).jac) (info v a).jac) (info v a) >>= fun _ =>
        clipNorm cap (.l2 a) >>= fun c => .ok (mul gl c)
      else .ok (.const 0),
     inherit2 (inherit1 (info v a).jac) (info v a).jac⟩

/-- `derive(variable)`, base_immutable.ipp:51-84. -/
noncomputable def derive (v : Nat) (e : Term) : Outcome Term := (info v e).derive

/-! ### Networks trained by gradient descent -/

/-- Activation functions of futils.ipp; `identity` is the lambda of mlp users that returns its argument. -/
inductive ActFn where
  | identity | sigmoid | tanh
deriving DecidableEq

/-- `sigmoid`, futils.ipp:10-14. -/
noncomputable def sigmoid (x : Term) : Outcome Term := divL 1 (addL 1 (unop .exp (neg x)))

/-- `tanh`, futils.ipp:16-21. -/
noncomputable def tanh (x : Term) : Outcome Term :=
  div (subR (unop .exp (mulL 2 x)) 1) (addR (unop .exp (mulL 2 x)) 1)

noncomputable def ActFn.apply : ActFn → Term → Outcome Term
  | .identity, x => .ok x
  | .sigmoid, x => Backprop.sigmoid x
  | .tanh, x => Backprop.tanh x

/-- A layer of `mlp`: its two variables, their number of units, and the activation. -/
structure NetLayer where
  w : Nat
  bias : Nat
  out : Nat
  act : ActFn

/-- The loop of `mlp::prop_up`, mlp.cpp:77-82, with `fc_layer::operator()`, fc_layer.cpp:68-82, for one input. -/
noncomputable def propUp : List NetLayer → Term → Outcome Term
  | [], x => .ok x
  | l :: ls, x =>
    l.act.apply (addAxial (matmul x (.leaf ⟨true, l.w⟩) false false) (.leaf ⟨true, l.bias⟩)) >>= fun h => propUp ls h

/-- `gd_net::setup`, gd_net.cpp:105-109: the error node of the network `ls` on input `x` with expected output `y`. -/
noncomputable def gdError (ls : List NetLayer) (x y : Term) : Outcome Term :=
  propUp ls x >>= fun out => .ok (mul (sub y out) (sub y out))

/-- `shape_dep::forward_pass` with the shape function of `reduce_mean`, shape_dep.ipp:130-142, tensor_handler.ipp:57-73,
transform.ipp:345-348: the number of elements of the argument. -/
def nelemsKernel : TransferFunc ℝ
  | dest, [_], outs, [s] => Outcome.fill outs.nElems (fun _ => .ok (s.nElems : ℝ)) dest
  | _, _, _, _ => .abort

/-- `std::accumulate` of the squares of the first elements, elementary.ipp:1023-1028. -/
def sumSquares (a : List ℝ) : Nat → Outcome ℝ
  | 0 => .ok 0
  | n + 1 => sumSquares a n >>= fun s => Outcome.read a n >>= fun x => .ok (s + x * x)

/-- The kernel of `l2norm`, elementary.ipp:1019-1029: the number of elements is that of the output. -/
noncomputable def l2Kernel : TransferFunc ℝ
  | dest, [a], outs, [_] => sumSquares a outs.nElems >>= fun s => Outcome.write dest 0 (Real.sqrt s)
  | _, _, _, _ => .abort

/-- The kernel of `clip_norm`, elementary.ipp:1071-1081. -/
noncomputable def clipKernel (cap : ℝ) : TransferFunc ℝ
  | dest, [l, a], outs, [_, _] => Outcome.read l 0 >>= fun norm =>
      Outcome.fill outs.nElems (fun i => Outcome.read a i >>= fun x => .ok (x * cap / norm)) dest
  | _, _, _, _ => .abort

/-- First evaluation of a term; `ρ` holds the leaves' tensors. -/
noncomputable def eval (env : Verif.Env ℝ) (on : Bool) (ρ : Leaf → Tensor ℝ) : Term → Outcome (Tensor ℝ)
  | .leaf l => .ok (ρ l)
  | .const c => .ok ⟨some [c], [1], [1]⟩
  | .un k a => eval env on ρ a >>= fun x =>
      Op.forwardPass env Elementary.elementaryShaper (Elementary.unaryElem k.fn) none [some x]
  | .bin k a b => eval env on ρ a >>= fun x => eval env on ρ b >>= fun y =>
      Op.forwardPass env Elementary.elementaryShaper (Elementary.binaryElem k.fn) none [some x, some y]
  | .mm _ _ a b => eval env on ρ a >>= fun x => eval env on ρ b >>= fun y =>
      Op.forwardPass env Matmul.shaper (Matmul.kernel on env.junk) none [some x, some y]
  | .axial a b => eval env on ρ a >>= fun x => eval env on ρ b >>= fun y =>
      Op.forwardPass env (Elementary.axialShaper 1 false) (Elementary.binaryAxial (· + ·) 1 false) none [some x, some y]
  | .tr a => eval env on ρ a >>= fun x =>
      Op.forwardPass env (Transform.transposeShaper (0, 1)) (Transform.transposeKernel (0, 1)) none [some x]
  | .rsum a => eval env on ρ a >>= fun x =>
      Op.forwardPass env (Transform.compressShaper 1) (Transform.compressKernel (· + ·) 1) none [some x]
  | .sum0 a => eval env on ρ a >>= fun x =>
      Op.forwardPass env (Transform.compressShaper 0) (Transform.compressKernel (· + ·) 0) none [some x]
  | .max0 a => eval env on ρ a >>= fun x =>
      Op.forwardPass env (Transform.compressShaper 0) (Transform.compressKernel max 0) none [some x]
  | .sumAll a => eval env on ρ a >>= fun x =>
      Op.forwardPass env Transform.compressAllShaper (Transform.compressAllKernel (· + ·)) none [some x]
  | .nelems a => eval env on ρ a >>= fun x => Op.forwardPass env (fun _ => .ok [1]) nelemsKernel none [some x]
  | .grp _ a => eval env on ρ a >>= fun x =>
      Op.forwardPass env Elementary.elementaryShaper (Elementary.unaryElem id) none [some x]
  | .binAx k axis left a b => eval env on ρ a >>= fun x => eval env on ρ b >>= fun y =>
      Op.forwardPass env (Elementary.axialShaper axis left) (Elementary.binaryAxial k.fn axis left) none [some x, some y]
  | .l2 a => eval env on ρ a >>= fun x => Op.forwardPass env (fun _ => .ok [1]) l2Kernel none [some x]
  | .clipn cap a => eval env on ρ a >>= fun x => Op.forwardPass env (fun _ => .ok [1]) l2Kernel none [some x] >>= fun y =>
      Op.forwardPass env Elementary.elementaryShaper (clipKernel cap) none [some y, some x]

end Backprop
end Verif
