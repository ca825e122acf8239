import Verif.Basic
import Mathlib.Analysis.SpecialFunctions.Pow.Real
import Mathlib.Analysis.SpecialFunctions.Trigonometric.Basic
/-!
# Model of operator construction and differentiation
(app/tenncor/src/graph/operations/elementary.ipp, operation_utils.ipp,
src/graph/connector/immutable/base_immutable.ipp, immutable.ipp)

Nodes are numbered in the order of their construction; numbers 0 and 1 are `get_shared_zero` and
`get_shared_one`.  Elements are real numbers instead of `double` (no rounding).

Simplifications.  All operators here act element by element, a one-element operand being broadcast (this
is C20/C21), so the shape of non-constant nodes is not tracked.  No node carries "grouping" metadata (it is
set by `reduce` only, transform.ipp:304; it makes the binary operators take their axial variant, C54) or a
Jacobian (set by `matmul` and the axial variants only).  Null node arguments are not modelled.  Nodes are
not destroyed.  Where C++ leaves the order of evaluation of operands open, the left one is built first.
-/
namespace Verif
namespace Expr
open scoped Classical

/-- `std::round`: half away from zero. -/
noncomputable def roundAway (x : ℝ) : ℝ := if 0 ≤ x then ⌊x + 1 / 2⌋ else -⌊-x + 1 / 2⌋

/-- The `if (min > data) … else if (max < data) …` of `clip_val`, elementary.ipp:961-962, 979-981. -/
noncomputable def clamp (lo hi x : ℝ) : ℝ := if lo > x then lo else if hi < x then hi else x

/-- `(T) compare(left, right)`. -/
noncomputable def ofCmp (cmp : ℝ → ℝ → Bool) (x y : ℝ) : ℝ := if cmp x y then 1 else 0

/-- Unary operations: which closure `immutable<T>::get` was given. -/
inductive K1 where
  | ident | neg | abs | sin | cos | tan | csc | sec | cot | exp | sqrt | round | log
  | pow (s : ℝ) | clip (lo hi : ℝ)
  | addL (c : ℝ) | addR (c : ℝ) | subL (c : ℝ) | subR (c : ℝ)
  | mulL (c : ℝ) | mulR (c : ℝ) | divL (c : ℝ) | divR (c : ℝ)
  | condL (name : List Char) (cmp : ℝ → ℝ → Bool) (c : ℝ)
  | condR (name : List Char) (cmp : ℝ → ℝ → Bool) (c : ℝ)

/-- Binary operations. -/
inductive K2 where
  | add | sub | mul | div
  | cond (name : List Char) (cmp : ℝ → ℝ → Bool)

/-- The transfer functions: elementary.ipp:408-413 (identity), 459-466 (`abs`: the kernel is `+data`),
503-510 (neg), 537-904 (sin to log), 926-933 (pow), 972-984 (clip_val), 1110-1118, 1146-1154
(conditional), 1353-1362 to 1810-1819 (scalar operators). -/
noncomputable def K1.fn : K1 → ℝ → ℝ
  | .ident, x => x
  | .neg, x => -x
  | .abs, x => x
  | .sin, x => Real.sin x
  | .cos, x => Real.cos x
  | .tan, x => Real.tan x
  | .csc, x => 1 / Real.sin x
  | .sec, x => 1 / Real.cos x
  | .cot, x => Real.cos x / Real.sin x
  | .exp, x => Real.exp x
  | .sqrt, x => Real.sqrt x
  | .round, x => roundAway x
  | .log, x => Real.log x
  | .pow s, x => x ^ s
  | .clip lo hi, x => clamp lo hi x
  | .addL c, x => c + x
  | .addR c, x => x + c
  | .subL c, x => c - x
  | .subR c, x => x - c
  | .mulL c, x => c * x
  | .mulR c, x => x * c
  | .divL c, x => c / x
  | .divR c, x => x / c
  | .condL _ cmp c, x => ofCmp cmp c x
  | .condR _ cmp c, x => ofCmp cmp x c

/-- elementary.ipp:1189-1193 (conditional), 1440-1443, 1564-1567, 1704-1707, 1845-1848. -/
noncomputable def K2.fn : K2 → ℝ → ℝ → ℝ
  | .add, x, y => x + y
  | .sub, x, y => x - y
  | .mul, x, y => x * y
  | .div, x, y => x / y
  | .cond _ cmp, x, y => ofCmp cmp x y

/-- The pieces of `opname` between underscores; `fmt` is how a `std::stringstream` prints a number. -/
def K1.parts (fmt : ℝ → List Char) : K1 → List (List Char)
  | .ident => ["identity".toList]
  | .neg => ["neg".toList]
  | .abs => ["abs".toList]
  | .sin => ["sin".toList]
  | .cos => ["cos".toList]
  | .tan => ["tan".toList]
  | .csc => ["csc".toList]
  | .sec => ["sec".toList]
  | .cot => ["cot".toList]
  | .exp => ["exp".toList]
  | .sqrt => ["sqrt".toList]
  | .round => ["round".toList]
  | .log => ["log".toList]
  | .pow s => ["pow".toList, fmt s]
  | .clip lo hi => ["clip".toList, "val".toList, fmt lo, fmt hi]
  | .addL c => [fmt c, "add".toList]
  | .addR c => ["add".toList, fmt c]
  | .subL c => [fmt c, "sub".toList]
  | .subR c => ["sub".toList, fmt c]
  | .mulL c => [fmt c, "mul".toList]
  | .mulR c => ["mul".toList, fmt c]
  | .divL c => [fmt c, "div".toList]
  | .divR c => ["div".toList, fmt c]
  | .condL name _ c => ["conditional".toList, name, fmt c]
  | .condR name _ c => ["conditional".toList, name, fmt c]

def K2.parts : K2 → List (List Char)
  | .add => ["add".toList]
  | .sub => ["sub".toList]
  | .mul => ["mul".toList]
  | .div => ["div".toList]
  | .cond name _ => ["conditional".toList, name]

/-- `opname`. -/
def K1.label (fmt : ℝ → List Char) (k : K1) : List Char := List.intercalate ['_'] (k.parts fmt)
def K2.label (k : K2) : List Char := List.intercalate ['_'] k.parts

inductive Node where
  /-- `variable` (true) or `placeholder` (false) -/
  | leaf (trainable : Bool)
  /-- `constant`, with its elements -/
  | const (d : List ℝ)
  | un (k : K1) (a : Nat)
  | bin (k : K2) (a b : Nat)

def Node.args : Node → List Nat
  | .leaf _ => []
  | .const _ => []
  | .un _ a => [a]
  | .bin _ a b => [a, b]

/-- `get_label` of an operation. -/
def Node.label (fmt : ℝ → List Char) : Node → Option (List Char)
  | .leaf _ => none
  | .const _ => none
  | .un k _ => some (k.label fmt)
  | .bin k _ _ => some k.label

structure St where
  nodes : List Node
  /-- the non-null entries of `gcache_` -/
  cache : Nat → Nat → Option Nat
  /-- record of all operations looked up or built so far (not in the code; for stating theorems) -/
  asked1 : List K1
  asked2 : List K2

def St.init : St := { nodes := [.const [0], .const [1]], cache := fun _ _ => none, asked1 := [], asked2 := [] }

/-- Iteration order of hash sets (it may depend on anything, here on the number of nodes). -/
structure Hash where
  ord : Nat → List Nat → List Nat
  ord_perm : ∀ n l, (ord n l).Perm l

/-- … and how numbers are printed. -/
structure Env extends Hash where
  fmt : ℝ → List Char

abbrev M := St → Outcome (Nat × St)

def push (nd : Node) : M := fun S => .ok (S.nodes.length, { S with nodes := S.nodes ++ [nd] })

/-- `constant<T>::get(scalar)`, and `constant<T>::get(vec, shape)` with a matching shape. -/
def mkConst (d : List ℝ) : M := push (.const d)

def ret (n : Nat) : M := fun S => .ok (n, S)

/-- `dynamic_cast<constant<T>*>` and `expose`. -/
def constData (S : St) (a : Nat) : Option (List ℝ) :=
  match S.nodes[a]? with
  | some (.const d) => some d
  | _ => none

/-- `find_audience(label)`, inode.ipp:75-90: the nodes labelled `l` having `a` as an argument. -/
noncomputable def audience (env : Env) (S : St) (a : Nat) (l : List Char) : List Nat :=
  env.ord S.nodes.length ((List.range S.nodes.length).filter
    (fun n => decide (∃ nd, S.nodes[n]? = some nd ∧ a ∈ nd.args ∧ nd.label env.fmt = some l)))

/-- `unary_parent_search`, operation_utils.ipp:14-23, else `immutable<T>::get`. -/
noncomputable def unary (env : Env) (k : K1) (a : Nat) : M := fun S =>
  match (audience env S a (k.label env.fmt)).head? with
  | some p => .ok (p, { S with asked1 := k :: S.asked1 })
  | none => push (.un k a) { S with asked1 := k :: S.asked1 }

/-- The test in `ordered_binary_parent_search`, operation_utils.ipp:35-36, and
`unordered_binary_parent_search`, 54-57. -/
def argsMatch (S : St) (unordered : Bool) (a b p : Nat) : Bool :=
  match S.nodes[p]? with
  | some nd => decide (nd.args = [a, b]) || (unordered && decide (nd.args = [b, a]))
  | none => false

/-- add_helper and mul_helper search for either order of the arguments. -/
def K2.unordered : K2 → Bool
  | .add => true
  | .mul => true
  | _ => false

noncomputable def binary (env : Env) (k : K2) (a b : Nat) : M := fun S =>
  match (audience env S a k.label).find? (argsMatch S k.unordered a b) with
  | some p => .ok (p, { S with asked2 := k :: S.asked2 })
  | none => push (.bin k a b) { S with asked2 := k :: S.asked2 }

/-- `sin`, `cos`, …, `log`, `clip_val` after swapping the bounds, and the scalar forms of `conditional`:
constants are computed on the spot with the same function, elementary.ipp:520-904, 951-995, 1092-1162. -/
noncomputable def unop (env : Env) (k : K1) (a : Nat) : M := fun S =>
  match constData S a with
  | some d => mkConst (d.map k.fn) S
  | none => unary env k a S

/-- `identity`, elementary.ipp:400-424. -/
noncomputable def identity (env : Env) (a : Nat) : M := unary env .ident a

/-- Unary `operator +`, elementary.ipp:439-473: absolute values of a constant. -/
noncomputable def abs (env : Env) (a : Nat) : M := fun S =>
  match constData S a with
  | some d => mkConst (d.map (fun x => |x|)) S
  | none => unary env .abs a S

/-- Unary `operator -`, elementary.ipp:475-518.  The label "neg" is given to nodes built here only. -/
noncomputable def neg (env : Env) (a : Nat) : M := fun S =>
  match S.nodes[a]? with
  | some (.const d) => mkConst (d.map (fun x => -x)) S
  | some (.un .neg c) => ret c S
  | _ => unary env .neg a S

/-- `pow`, elementary.ipp:904-948. -/
noncomputable def pow (env : Env) (a : Nat) (s : ℝ) : M := fun S =>
  if s = 0 then mkConst [1] S
  else if s = 1 then ret a S
  else unop env (.pow s) a S

/-- `clip_val`, elementary.ipp:950-995. -/
noncomputable def clip (env : Env) (a : Nat) (lo hi : ℝ) : M :=
  if lo > hi then unop env (.clip hi lo) a else unop env (.clip lo hi) a

/-- `operator + (T, varptr)`, elementary.ipp:1331-1372. -/
noncomputable def addL (env : Env) (c : ℝ) (b : Nat) : M := fun S =>
  if c = 0 then ret b S
  else match constData S b with
    | some d => if d = [0] then mkConst [c] S else mkConst (d.map (fun x => c + x)) S
    | none => unary env (.addL c) b S

/-- `operator + (varptr, T)`, elementary.ipp:1374-1413. -/
noncomputable def addR (env : Env) (a : Nat) (c : ℝ) : M := fun S =>
  match constData S a with
  | some d => if d = [0] then mkConst [c] S else mkConst (d.map (fun x => x + c)) S
  | none => if c = 0 then ret a S else unary env (.addR c) a S

/-- `operator - (T, varptr)`, elementary.ipp:1455-1496. -/
noncomputable def subL (env : Env) (c : ℝ) (b : Nat) : M := fun S =>
  if c = 0 then neg env b S
  else match constData S b with
    | some d => if d = [0] then mkConst [c] S else mkConst (d.map (fun x => c - x)) S
    | none => unary env (.subL c) b S

/-- `operator - (varptr, T)`, elementary.ipp:1498-1537. -/
noncomputable def subR (env : Env) (a : Nat) (c : ℝ) : M := fun S =>
  match constData S a with
  | some d => if d = [0] then mkConst [-c] S else mkConst (d.map (fun x => x - c)) S
  | none => if c = 0 then ret a S else unary env (.subR c) a S

/-- `operator * (T, varptr)`, elementary.ipp:1579-1627. -/
noncomputable def mulL (env : Env) (c : ℝ) (b : Nat) : M := fun S =>
  match constData S b with
  | some d =>
    if d = [0] ∨ 0 = c then mkConst [0] S
    else if d = [1] then mkConst [c] S
    else mkConst (d.map (fun x => c * x)) S
  | none =>
    if 0 = c then mkConst [0] S
    else if 1 = c then ret b S
    else if -1 = c then neg env b S
    else unary env (.mulL c) b S

/-- `operator * (varptr, T)`, elementary.ipp:1629-1675. -/
noncomputable def mulR (env : Env) (a : Nat) (c : ℝ) : M := fun S =>
  match constData S a with
  | some d =>
    if d = [0] ∨ 0 = c then mkConst [0] S
    else if d = [1] then mkConst [c] S
    else mkConst (d.map (fun x => x * c)) S
  | none =>
    if 0 = c then mkConst [0] S
    else if 1 = c then ret a S
    else if -1 = c then neg env a S
    else unary env (.mulR c) a S

/-- `operator / (T, varptr)`, elementary.ipp:1721-1772. -/
noncomputable def divL (env : Env) (c : ℝ) (b : Nat) : M := fun S =>
  match constData S b with
  | some d =>
    if d = [0] then .throw .logicError
    else if d = [1] then mkConst [c] S
    else mkConst (d.map (fun x => c / x)) S
  | none => if c = 0 then mkConst [0] S else unary env (.divL c) b S

/-- `operator / (varptr, T)`, elementary.ipp:1774-1820. -/
noncomputable def divR (env : Env) (a : Nat) (c : ℝ) : M := fun S =>
  match constData S a with
  | some d => if d = [0] then mkConst [0] S else mkConst (d.map (fun x => x / c)) S
  | none =>
    if c = 0 then .throw .logicError
    else if c = 1 then ret a S
    else unary env (.divR c) a S

/-- `operator +` on nodes: `add_helper`, elementary.ipp:168-212, 1415-1453. -/
noncomputable def add (env : Env) (a b : Nat) : M := fun S =>
  match constData S a, constData S b with
  | some [x], _ => if x = 0 then ret b S else addL env x b S
  | _, some [y] => if y = 0 then ret a S else addR env a y S
  | _, _ => binary env .add a b S

/-- `operator -` on nodes: `sub_helper`, elementary.ipp:214-262, 1539-1577. -/
noncomputable def sub (env : Env) (a b : Nat) : M := fun S =>
  if a = b then mkConst [0] S
  else match constData S a, constData S b with
    | some [x], _ => if x = 0 then neg env b S else subL env x b S
    | _, some [y] => if y = 0 then ret a S else subR env a y S
    | _, _ => binary env .sub a b S

/-- `operator *` on nodes: `mul_helper`, elementary.ipp:264-312, 1677-1719. -/
noncomputable def mul (env : Env) (a b : Nat) : M := fun S =>
  if a = b then pow env a 2 S
  else match constData S a, constData S b with
    | some [x], _ => if x = 0 then mkConst [0] S else mulL env x b S
    | _, some [y] => if y = 0 then mkConst [0] S else mulR env a y S
    | _, _ => binary env .mul a b S

/-- `operator /` on nodes: `div_helper`, elementary.ipp:314-363, 1822-1860. -/
noncomputable def div (env : Env) (a b : Nat) : M := fun S =>
  if a = b then mkConst [1] S
  else match constData S a, constData S b with
    | some [x], _ => if x = 0 then mkConst [0] S else divL env x b S
    | _, some [y] => if y = 0 then .throw .logicError else divR env a y S
    | _, _ => binary env .div a b S

/-- `conditional` on nodes, elementary.ipp:1164-1206. -/
noncomputable def cond (env : Env) (name : List Char) (cmp : ℝ → ℝ → Bool) (a b : Nat) : M := fun S =>
  match constData S a, constData S b with
  | some [x], _ => unop env (.condL name cmp x) b S
  | _, some [y] => unop env (.condR name cmp y) a S
  | _, _ => binary env (.cond name cmp) a b S

/-- Sequencing. -/
def andThen (x : M) (f : Nat → M) : M := fun S => x S >>= fun r => f r.1 r.2

/-- The gradient closures (`ginit`) of the unary operations; `a` is the argument, `g` its gradient:
elementary.ipp:414-418, 467-471, 511-515, 538-904, 934-940, 985-990, 1119-1124, 1155-1160, 1363-1368 to
1813-1817. -/
noncomputable def ginit1 (env : Env) : K1 → Nat → Nat → M
  | .ident, _, g => ret g
  | .neg, _, g => neg env g
  | .abs, _, g => abs env g
  | .sin, a, g => andThen (unop env .cos a) fun u => mul env g u
  | .cos, a, g => andThen (neg env g) fun ng => andThen (unop env .sin a) fun u => mul env ng u
  | .tan, a, g => andThen (unop env .cos a) fun d => andThen (mul env d d) fun dd => div env g dd
  | .csc, a, g => andThen (neg env g) fun ng => andThen (unop env .sin a) fun u =>
      andThen (unop env .tan a) fun w => andThen (mul env u w) fun uw => div env ng uw
  | .sec, a, g => andThen (unop env .tan a) fun u => andThen (mul env g u) fun gu =>
      andThen (unop env .cos a) fun w => div env gu w
  | .cot, a, g => andThen (unop env .csc a) fun b => andThen (neg env g) fun ng =>
      andThen (mul env ng b) fun nb => mul env nb b
  | .exp, a, g => andThen (unop env .exp a) fun u => mul env g u
  | .sqrt, a, g => andThen (unop env .sqrt a) fun u => andThen (mulL env 2 u) fun w => div env g w
  | .round, _, g => unop env .round g
  | .log, a, g => div env g a
  | .pow s, a, g => andThen (mulL env s g) fun sg => andThen (pow env a (s - 1)) fun p => mul env sg p
  | .clip lo hi, a, g => andThen (clip env a lo hi) fun u => mul env g u
  | .addL _, _, g => ret g
  | .addR _, _, g => ret g
  | .subL _, _, g => neg env g
  | .subR _, _, g => ret g
  | .mulL c, _, g => mulL env c g
  | .mulR c, _, g => mulL env c g
  | .divL c, b, g => andThen (mulL env (-c) g) fun n => andThen (mul env b b) fun bb => div env n bb
  | .divR c, _, g => divR env g c
  | .condL name cmp _, _, g => unop env (.condL name cmp 0) g
  | .condR name cmp _, _, g => unop env (.condR name cmp 0) g

/-- The gradient closures of the binary operations: elementary.ipp:1194-1201, 1444-1450, 1568-1574,
1708-1716, 1849-1857. -/
noncomputable def ginit2 (env : Env) : K2 → Nat → Nat → Nat → Nat → M
  | .add, _, _, ag, bg => add env ag bg
  | .sub, _, _, ag, bg => sub env ag bg
  | .mul, a, b, ag, bg => andThen (mul env ag b) fun x => andThen (mul env bg a) fun y => add env x y
  | .div, a, b, ag, bg => andThen (mul env ag b) fun x => andThen (mul env bg a) fun y =>
      andThen (sub env x y) fun n => andThen (mul env b b) fun bb => div env n bb
  | .cond name cmp, _, _, ag, bg => cond env name cmp ag bg

/-- Is the leaf `x` a key of `gcache_` of `n` (base_immutable.ipp:177-191), that is, below `n` (C33)? -/
def reaches (S : St) (x : Nat) : Nat → Nat → Bool
  | 0, _ => false
  | fuel + 1, n =>
    match S.nodes[n]? with
    | some (.leaf _) => decide (n = x)
    | some (.const _) => decide (n = x)
    | some (.un _ a) => reaches S x fuel a
    | some (.bin _ a b) => reaches S x fuel a || reaches S x fuel b
    | none => false

def setCache (n x d : Nat) (S : St) : St :=
  { S with cache := fun m y => if m = n ∧ y = x then some d else S.cache m y }

/-- `get_gradient(leaf)`: base_immutable.ipp:219-232 with `backward_pass`, immutable.ipp:175-194;
variable.ipp:206-214; placeholder.ipp:105-109; constant.ipp:56-60.  The first argument bounds the depth of
the recursion (arguments are older than the node). -/
noncomputable def gradient (env : Env) (x : Nat) : Nat → Nat → M
  | 0, _ => fun _ => .abort
  | fuel + 1, n => fun S =>
    match S.nodes[n]? with
    | some (.leaf tr) => if tr = true ∧ n = x then ret 1 S else ret 0 S
    | some (.const _) => ret 0 S
    | some (.un k a) =>
      if reaches S x (n + 1) n then
        match S.cache n x with
        | some d => ret d S
        | none => gradient env x fuel a S >>= fun g => ginit1 env k a g.1 g.2 >>= fun r =>
            .ok (r.1, setCache n x r.1 r.2)
      else ret 0 S
    | some (.bin k a b) =>
      if reaches S x (n + 1) n then
        match S.cache n x with
        | some d => ret d S
        | none => gradient env x fuel a S >>= fun ga => gradient env x fuel b ga.2 >>= fun gb =>
            ginit2 env k a b ga.1 gb.1 gb.2 >>= fun r => .ok (r.1, setCache n x r.1 r.2)
      else ret 0 S
    | none => .ub

/-- `derive(variable)`: base_immutable.ipp:51-84 without Jacobians, ivariable.ipp:59-67,
constant.ipp:44-48. -/
noncomputable def derive (env : Env) (n x : Nat) : M := gradient env x (n + 1) n

/-- Calls of the API. -/
inductive Call where
  | leaf (trainable : Bool)
  | const (d : List ℝ)
  | un (k : K1) (a : Nat)
  | bin (k : K2) (a b : Nat)
  | derive (n x : Nat)

def Call.args : Call → List Nat
  | .leaf _ => []
  | .const _ => []
  | .un _ a => [a]
  | .bin _ a b => [a, b]
  | .derive n x => [n, x]

/-- Which function a call of the API ends up in. -/
noncomputable def callUn (env : Env) : K1 → Nat → M
  | .ident, a => identity env a
  | .neg, a => neg env a
  | .abs, a => abs env a
  | .pow s, a => pow env a s
  | .clip lo hi, a => clip env a lo hi
  | .addL c, a => addL env c a
  | .addR c, a => addR env a c
  | .subL c, a => subL env c a
  | .subR c, a => subR env a c
  | .mulL c, a => mulL env c a
  | .mulR c, a => mulR env a c
  | .divL c, a => divL env c a
  | .divR c, a => divR env a c
  | k, a => unop env k a

noncomputable def callBin (env : Env) : K2 → Nat → Nat → M
  | .add, a, b => add env a b
  | .sub, a, b => sub env a b
  | .mul, a, b => mul env a b
  | .div, a, b => div env a b
  | .cond name cmp, a, b => cond env name cmp a b

/-- One call.  A constant has at least one element (a tensor with no elements has no data).  `derive` with
respect to another operation (base_immutable.ipp:67-76, `temporary_eval`) is not part of histories: `abort`
stands for it. -/
noncomputable def exec (env : Env) (c : Call) : M := fun S =>
  if c.args.all (fun a => decide (a < S.nodes.length)) then
    match c with
    | .leaf tr => push (.leaf tr) S
    | .const d => if d = [] then .abort else push (.const d) S
    | .un k a => callUn env k a S
    | .bin k a b => callBin env k a b S
    | .derive n x =>
      match S.nodes[x]? with
      | some (.leaf true) => derive env n x S
      | some (.leaf false) => if n = x then ret 1 S else ret 0 S
      | some (.const _) => ret 0 S
      | _ => if n = x then ret 1 S else .abort
  else .ub

/-- A history; every call has its own hash orders, all print numbers alike. -/
noncomputable def run (fmt : ℝ → List Char) : List (Hash × Call) → St → Outcome St
  | [], S => .ok S
  | c :: cs, S => exec ⟨c.1, fmt⟩ c.2 S >>= fun r => run fmt cs r.2

end Expr
end Verif
