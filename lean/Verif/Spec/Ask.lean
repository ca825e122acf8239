import Verif.Model.Ask
import Verif.Spec.Expr
/-!
# Specification vocabulary for node sharing (C79)
-/
namespace Verif.Spec
open Ask
open Expr (K1)
open scoped Classical

/-- Node n computes o of the nodes `args`. -/
def IsOp (S : St) (n : Nat) (o : Op) (args : List Nat) : Prop := S.nodes[n]? = some (.op o args)

/-- Node n is a constant. -/
def IsConst (S : St) (n : Nat) (d : List ℝ) : Prop := S.nodes[n]? = some (.const d)

/-- t is a transposed (along axes i ≤ j), or a is t transposed. -/
def Transposed (S : St) (i j a t : Nat) : Prop := IsOp S t (.transpose i j) [a] ∨ IsOp S a (.transpose i j) [t]

/-- n computes o of a and b; for addition and multiplication of b and a will do.  Of a node and itself: 0 for
subtraction, 1 for division, the square for multiplication. -/
def Binary (S : St) (o : Arith) (op : Op) (a b n : Nat) : Prop :=
  match o with
  | .add => IsOp S n op [a, b] ∨ IsOp S n op [b, a]
  | .sub => (a ≠ b ∧ IsOp S n op [a, b]) ∨ (a = b ∧ IsConst S n [0])
  | .mul => (a ≠ b ∧ (IsOp S n op [a, b] ∨ IsOp S n op [b, a])) ∨ (a = b ∧ IsOp S n (.elem (.pow 2)) [a])
  | .div => (a ≠ b ∧ IsOp S n op [a, b]) ∨ (a = b ∧ IsConst S n [1])

/-- The sum of squares (what the library calls the norm). -/
noncomputable def squares (d : List ℝ) : ℝ := (d.map fun x => x * x).sum

/-- Scaled down by c over the norm, if that exceeds c. -/
noncomputable def clippedTo (c : ℝ) (d : List ℝ) : List ℝ := if squares d ≤ c then d else d.map fun x => x * c / squares d

/-- The first position of the greatest element. -/
noncomputable def firstMax (d : List ℝ) : ℝ := ((d.findIdx fun x => d.all fun y => decide (y ≤ x) : Nat) : ℝ)

/-- The size along axis k, which has to exist; the number of elements. -/
def sizeAt (k : Nat) (s : Shape) : Outcome (List Nat) := if k < s.length then .ok [s.getD k 0] else .ub
def sizeAll (s : Shape) : Outcome (List Nat) := .ok [if s = [] then 0 else s.prod]

/-- Node n is what the call asks for. -/
def Means (S : St) : Call → Nat → Prop
  | .leaf, n => S.nodes[n]? = some .leaf
  | .const d, n => IsConst S n d
  | .elem k a, n => IsOp S n (.elem k) [a]
  | .arith o a b, n => Binary S o (.arith o) a b n
  | .axial o left k a b, n => Binary S o (.axial o left k) a b n
  | .cond name cmp a b, n => IsOp S n (.cond name cmp) [a, b]
  | .transpose i j a, n => Transposed S (min i j) (max i j) a n
  | .fit a w, n => (IsConst S a [0] ∧ n = a) ∨ (¬ IsConst S a [0] ∧ IsOp S n .fit [a, w])
  | .extend i m a, n => (m = 0 ∧ IsConst S n [0]) ∨ (m = 1 ∧ n = a) ∨ (2 ≤ m ∧ IsOp S n (.extend i m) [a])
  | .compress name f k a, n => IsOp S n (.compress name f k) [a]
  | .argCompress name f k a, n => IsOp S n (.argCompress name f k) [a]
  | .mean (some k) a, n => ∃ s d, IsOp S s (.compress "reduce_sum".toList (fun x y => x + y) (some k)) [a] ∧
      IsOp S d (.extract ("axis_".toList ++ dec k ++ "_size".toList) (sizeAt k)) [a] ∧ IsOp S n (.arith .div) [s, d]
  | .mean none a, n => ∃ s d, IsOp S s (.compress "reduce_sum".toList (fun x y => x + y) none) [a] ∧
      IsOp S d (.extract "shape_nelems".toList sizeAll) [a] ∧ IsOp S n (.arith .div) [s, d]
  | .flip ds a, n => IsOp S n (.flip ds) [a]
  | .cross i j a b, n => IsOp S n (.cross i j) [a, b]
  | .conv i j a b, n => ∃ f, IsOp S f (.flip [i, j]) [b] ∧ IsOp S n (.cross i j) [a, f]
  | .matmul ta tb a b, n => ∃ a' b', (ta = true ∧ Transposed S 0 1 a a' ∨ ta = false ∧ a' = a) ∧
      (tb = true ∧ Transposed S 0 1 b b' ∨ tb = false ∧ b' = b) ∧ IsOp S n .matmul [a', b']
  | .l2norm a, n => (∃ d, IsConst S a d ∧ IsConst S n [squares d]) ∨ ((∀ d, ¬ IsConst S a d) ∧ IsOp S n .l2norm [a])
  | .clipNorm c a, n => (∃ d, IsConst S a d ∧ IsConst S n (clippedTo c d)) ∨
      ((∀ d, ¬ IsConst S a d) ∧ ∃ l, IsOp S l .l2norm [a] ∧ IsOp S n (.clipNorm c) [l, a])
  | .sample m a, n => (IsConst S a [] ∧ IsConst S n []) ∨ ((∀ d, ¬ IsConst S a d) ∧ IsOp S n (.sample m) [a])
  | .asConst a, n => IsOp S n .asConst [a]
  | .extract name f args, n => IsOp S n (.extract name f) args

/-- The calls that are allowed on existing nodes: a positive cap, no constant probabilities (unless there are none), some
node to extract from. -/
def Allowed (S : St) : Call → Prop
  | .clipNorm cap _ => 0 < cap
  | .sample _ a => ∀ d, IsConst S a d → d = []
  | .extract _ _ args => args ≠ []
  | _ => True

/-- No two different operations looked for have the same name, and none is called as `as_constant` expects its nodes
to be. -/
def Apart (fmt : ℝ → List Char) (S : St) : Prop :=
  (∀ o ∈ S.asked, ∀ o' ∈ S.asked, o.label fmt = o'.label fmt → o = o') ∧ ∀ o ∈ S.asked, o.label fmt ≠ "constant_immutable".toList

/-- The operations of the library's own functions: everything but conditionals with a scalar, and functions passed by the
user under a name of the user's. -/
def Own : Op → Prop
  | .elem k => NotCond1 k
  | .cond name cmp => (name = "eq".toList ∧ cmp = fun x y => decide (x = y)) ∨ (name = "neq".toList ∧ cmp = fun x y => decide (x ≠ y))
  | .compress name f _ => (name = "reduce_sum".toList ∧ f = fun x y => x + y) ∨ (name = "reduce_max".toList ∧ f = fun x y => max x y)
  | .argCompress name f _ => name = "arg_max".toList ∧ f = firstMax
  | .extract name f => (∃ k, name = "axis_".toList ++ dec k ++ "_size".toList ∧ f = sizeAt k) ∨ (name = "shape_nelems".toList ∧ f = sizeAll)
  | _ => True

/-- Calls of the library's own functions. -/
def OwnCall : Call → Prop
  | .elem k _ => NotCond1 k
  | .cond name cmp _ _ => Own (.cond name cmp)
  | .compress name f k _ => Own (.compress name f k)
  | .argCompress name f k _ => Own (.argCompress name f k)
  | .extract name f _ => Own (.extract name f)
  | _ => True

/-- The numbers in an operation. -/
def numbersOf : Op → List ℝ
  | .elem k => numbers k
  | .clipNorm c => [c]
  | .sample n => [n]
  | _ => []

/-- The numbers in a call. -/
def numbersIn : Call → List ℝ
  | .elem k _ => numbers k
  | .clipNorm c _ => [c]
  | .sample n _ => [n]
  | _ => []

/-- Different numbers of the calls, and 2 (which squares are made with), are printed differently. -/
def PrintedApart (fmt : ℝ → List Char) (cs : List Call) : Prop :=
  ∀ x ∈ 2 :: cs.flatMap numbersIn, ∀ y ∈ 2 :: cs.flatMap numbersIn, fmt x = fmt y → x = y

end Verif.Spec
