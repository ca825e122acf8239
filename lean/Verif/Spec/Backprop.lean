import Verif.Spec.Expr
import Verif.Spec.Layer
import Verif.Model.Backprop
/-!
# Specification of differentiation through matrix products

A term denotes a matrix of real numbers, written `f i j`: component `i` of vector `j` of a batch.
-/
namespace Verif.Spec
open Expr Backprop
open scoped Classical

/-- The entry `[p, q]` of variable `v` set to `x`. -/
noncomputable def setAt (val : Leaf → Nat → Nat → ℝ) (v p q : Nat) (x : ℝ) : Leaf → Nat → Nat → ℝ :=
  fun l i j => if l = ⟨true, v⟩ ∧ i = p ∧ j = q then x else val l i j

/-- Size of a leaf's value; a tensor of rank 1 is a batch of one. -/
def leafSize : List Nat → Nat × Nat
  | [n, b] => (n, b)
  | [n] => (n, 1)
  | _ => (0, 0)

/-- Size of the element-wise combination of two sizes: a single element is combined with every element of the other
side; otherwise the size of the right side. -/
def meet (d e : Nat × Nat) : Nat × Nat := if e = (1, 1) then d else e

/-- Where entry `[i, j]` of a combination of size `D` is found in an operand of size `d`: at the same place, in its only
element, or, if the operand is a column and the combination a row or the other way round, with the indices swapped. -/
def pos (d D : Nat × Nat) (i j : Nat) : Nat × Nat :=
  if d = D then (i, j) else if d = (1, 1) then (0, 0) else (j, i)

/-- Size of a term's value, given the shapes of the leaves. -/
def dims (shp : Leaf → List Nat) : Term → Nat × Nat
  | .leaf l => leafSize (shp l)
  | .const _ => (1, 1)
  | .un _ a => dims shp a
  | .bin _ a b => meet (dims shp a) (dims shp b)
  | .mm _ _ a b => ((dims shp b).1, (dims shp a).2)
  | .axial a _ => dims shp a
  | .tr a => ((dims shp a).2, (dims shp a).1)
  | .rsum a => ((dims shp a).1, 1)
  | .sum0 a => ((dims shp a).2, 1)
  | .max0 a => ((dims shp a).2, 1)
  | .sumAll _ => (1, 1)
  | .nelems _ => (1, 1)
  | .grp _ a => dims shp a
  | .binAx _ _ left a b => if left then dims shp b else dims shp a
  | .l2 _ => (1, 1)
  | .clipn _ a => dims shp a

/-- The largest of `f 0`, …, `f (n - 1)`. -/
noncomputable def maxOf (f : Nat → ℝ) : Nat → ℝ
  | 0 => 0
  | 1 => f 0
  | n + 1 => max (maxOf f n) (f n)

/-- The value of a term on paper. -/
noncomputable def den (shp : Leaf → List Nat) (val : Leaf → Nat → Nat → ℝ) : Term → Nat → Nat → ℝ
  | .leaf l, i, j => val l i j
  | .const c, _, _ => c
  | .un k a, i, j => k.fn (den shp val a i j)
  | .bin k a b, i, j =>
    k.fn (den shp val a (pos (dims shp a) (meet (dims shp a) (dims shp b)) i j).1 (pos (dims shp a) (meet (dims shp a) (dims shp b)) i j).2)
      (den shp val b (pos (dims shp b) (meet (dims shp a) (dims shp b)) i j).1 (pos (dims shp b) (meet (dims shp a) (dims shp b)) i j).2)
  | .mm _ _ a b, i, j => ∑ z ∈ Finset.range (dims shp a).1, den shp val a z j * den shp val b i z
  | .axial a b, i, j => den shp val a i j + den shp val b i 0
  | .tr a, i, j => den shp val a j i
  | .rsum a, i, _ => ∑ j ∈ Finset.range (dims shp a).2, den shp val a i j
  | .sum0 a, j, _ => ∑ i ∈ Finset.range (dims shp a).1, den shp val a i j
  | .max0 a, j, _ => maxOf (fun i => den shp val a i j) (dims shp a).1
  | .sumAll a, _, _ => ∑ i ∈ Finset.range (dims shp a).1, ∑ j ∈ Finset.range (dims shp a).2, den shp val a i j
  | .nelems a, _, _ => (dims shp a).1 * (dims shp a).2
  | .grp _ a, i, j => den shp val a i j
  | .binAx k axis false a b, i, j =>
    k.fn (den shp val a i j)
      (if dims shp b = (1, 1) then den shp val b 0 0 else if axis = 0 then den shp val b j 0 else den shp val b i 0)
  | .binAx k axis true a b, i, j =>
    k.fn (if dims shp a = (1, 1) then den shp val a 0 0 else if axis = 0 then den shp val a j 0 else den shp val a i 0)
      (den shp val b i j)
  -- not the norm, but the absolute value of the first entry
  | .l2 a, _, _ => |den shp val a 0 0|
  | .clipn cap a, i, j => den shp val a i j * cap / |den shp val a 0 0|

def IsMm : Term → Prop
  | .mm _ _ _ _ => True
  | _ => False

/-- The value has rank one. -/
def IsVec (shp : Leaf → List Nat) : Term → Prop
  | .leaf l => ∃ n, shp l = [n]
  | .un _ a => IsVec shp a
  | .bin _ a b => IsVec shp a ∧ IsVec shp b
  | .sum0 _ => True
  | .max0 _ => True
  | .sumAll _ => True
  | .nelems _ => True
  | .l2 _ => True
  | .clipn _ a => IsVec shp a
  | _ => False

/-- Two values can be combined element by element: same size, a single element on one side, or a column of rank one
on the left and a row on the right. -/
def Meets (shp : Leaf → List Nat) (a b : Term) : Prop :=
  dims shp a = dims shp b ∨ dims shp a = (1, 1) ∨ dims shp b = (1, 1) ∨ (IsVec shp a ∧ dims shp b = (1, (dims shp a).1))

/-- The transpose of a constant. -/
def IsTrConst (a : Term) : Prop := ∃ c, a = .tr (.const c)

/-- The sizes fit, and no part of the term is a constant, except for the transposes of constants on the right of
element-wise operations. A bias is added to a matrix product. The flag says whether the value is a gradient grouped by
axis 0; those are the left sides of operations along axis 0, whose right side has a single element, or one for each
column (where the number of rows must be another). -/
def TypedG (shp : Leaf → List Nat) : Bool → Term → Prop
  | false, .leaf l => ∃ n b, 0 < n ∧ 0 < b ∧ (shp l = [n, b] ∨ (b = 1 ∧ shp l = [n]))
  | false, .const _ => False
  | false, .un k a => TypedG shp false a ∧ ∀ c, k = .divR c → c ≠ 0
  | false, .bin _ a b => TypedG shp false a ∧ (TypedG shp false b ∨ IsTrConst b) ∧ Meets shp a b
  | false, .mm _ _ a b => TypedG shp false a ∧ TypedG shp false b ∧ (dims shp a).1 = (dims shp b).2
  | false, .axial a b => TypedG shp false a ∧ IsMm a ∧ ∃ l, b = .leaf l ∧ shp l = [(dims shp a).1]
  | false, .tr a => TypedG shp false a
  | false, .rsum a => TypedG shp false a
  | false, .sum0 a => TypedG shp false a
  | false, .max0 a => TypedG shp false a
  | false, .sumAll a => TypedG shp false a
  | false, .nelems a => TypedG shp false a
  | false, .grp _ _ => False
  | false, .binAx _ axis left a b => TypedG shp true a ∧ TypedG shp false b ∧ axis = 0 ∧ left = false ∧
      (dims shp b = (1, 1) ∨ (IsVec shp b ∧ dims shp b = ((dims shp a).2, 1) ∧ (dims shp a).1 ≠ (dims shp a).2))
  | false, .l2 a => TypedG shp false a
  | false, .clipn _ a => TypedG shp false a
  | true, .un k a => TypedG shp true a ∧ ∀ c, k = .divR c → c ≠ 0
  | true, .grp axis a => TypedG shp false a ∧ axis = 0
  | true, _ => False

abbrev Typed (shp : Leaf → List Nat) (a : Term) : Prop := TypedG shp false a

/-- Variable `v` does not occur. -/
def Free (v : Nat) : Term → Prop
  | .leaf l => l ≠ ⟨true, v⟩
  | .const _ => True
  | .un _ a => Free v a
  | .bin _ a b => Free v a ∧ Free v b
  | .mm _ _ a b => Free v a ∧ Free v b
  | .axial a b => Free v a ∧ Free v b
  | .tr a => Free v a
  | .rsum a => Free v a
  | .sum0 a => Free v a
  | .max0 a => Free v a
  | .sumAll a => Free v a
  | .nelems a => Free v a
  | .grp _ a => Free v a
  | .binAx _ _ _ a b => Free v a ∧ Free v b
  | .l2 a => Free v a
  | .clipn _ a => Free v a

/-- Element-wise use of the term `k`: smooth operations and biases, applied to `k` and to terms in which the variable
does not occur. -/
inductive Around (shp : Leaf → List Nat) (val : Leaf → Nat → Nat → ℝ) (v : Nat) (k : Term) : Term → Prop where
  | here : Around shp val v k k
  | un {u : K1} {a : Term} : Around shp val v k a → (∀ c, u = .divR c → c ≠ 0) →
      (∀ i j, i < (dims shp a).1 → j < (dims shp a).2 → SmoothAt1 u (den shp val a i j)) → Around shp val v k (.un u a)
  | left {u : K2} {a b : Term} : Around shp val v k a → Typed shp b → Free v b → dims shp a = dims shp b →
      (∀ i j, i < (dims shp a).1 → j < (dims shp a).2 → SmoothAt2 u (den shp val a i j) (den shp val b i j)) →
      Around shp val v k (.bin u a b)
  | right {u : K2} {a b : Term} : Around shp val v k b → Typed shp a → Free v a → dims shp a = dims shp b →
      (∀ i j, i < (dims shp a).1 → j < (dims shp a).2 → SmoothAt2 u (den shp val a i j) (den shp val b i j)) →
      Around shp val v k (.bin u a b)
  | both {u : K2} {a b : Term} : Around shp val v k a → Around shp val v k b →
      (∀ i j, i < (dims shp a).1 → j < (dims shp a).2 → SmoothAt2 u (den shp val a i j) (den shp val b i j)) →
      Around shp val v k (.bin u a b)
  | bias {a : Term} {l : Leaf} : Around shp val v k a → IsMm a → shp l = [(dims shp a).1] → l ≠ ⟨true, v⟩ →
      Around shp val v k (.axial a (.leaf l))

/-- Chains of matrix products: the variable itself, the variable as a bias, or the product of element-wise functions of
a chain and a term in which the variable does not occur. `zero a` says that the gradient of `a` was simplified to the
constant zero. -/
inductive Chain (shp : Leaf → List Nat) (val : Leaf → Nat → Nat → ℝ) (v : Nat) (zero : Term → Prop) : Term → Prop where
  | var : Typed shp (.leaf ⟨true, v⟩) → Chain shp val v zero (.leaf ⟨true, v⟩)
  | bias {a : Term} : Typed shp a → IsMm a → shp ⟨true, v⟩ = [(dims shp a).1] → Free v a →
      Chain shp val v zero (.axial a (.leaf ⟨true, v⟩))
  | left {k a b : Term} : Chain shp val v zero k → Around shp val v k a → ¬zero a → Typed shp b → Free v b →
      (dims shp a).1 = (dims shp b).2 → Chain shp val v zero (.mm false false a b)
  | right {k a b : Term} : Chain shp val v zero k → Around shp val v k b → ¬zero b → Typed shp a → Free v a →
      (dims shp a).1 = (dims shp b).2 → Chain shp val v zero (.mm false false a b)

/-- `t` holds the matrix `G`, or a single element where all entries of `G` are equal. -/
def Represents (t : Tensor ℝ) (n b : Nat) (G : Nat → Nat → ℝ) : Prop :=
  Batch t n b G ∨ ∃ c, Holds t [1] (fun _ => c) ∧ ∀ i j, i < n → j < b → G i j = c

/-- The activation functions on paper. -/
noncomputable def actFn : ActFn → ℝ → ℝ
  | .identity, x => x
  | .sigmoid, x => 1 / (1 + Real.exp (-x))
  | .tanh, x => Real.tanh x

/-- The network on paper, with the weights and biases in `val`. -/
noncomputable def netSpec (val : Leaf → Nat → Nat → ℝ) (ls : List NetLayer) : List (LayerSpec ℝ) :=
  ls.map fun l => ⟨l.out, val ⟨true, l.w⟩, fun i => val ⟨true, l.bias⟩ i 0, actFn l.act⟩

/-- The squared error on paper, over the `b` vectors of the batch. -/
noncomputable def sqError (val : Leaf → Nat → Nat → ℝ) (ls : List NetLayer) (n b : Nat) (x y : Leaf) : ℝ :=
  ∑ i ∈ Finset.range (width (netSpec val ls) n), ∑ j ∈ Finset.range b,
    (val y i j - feed (netSpec val ls) n (fun z => val x z j) i) ^ 2

/-- The variables have the shapes the layers need, for `n` inputs. -/
def NetShapes (shp : Leaf → List Nat) : Nat → List NetLayer → Prop
  | _, [] => True
  | n, l :: ls => 0 < l.out ∧ shp ⟨true, l.w⟩ = [l.out, n] ∧ shp ⟨true, l.bias⟩ = [l.out] ∧ NetShapes shp l.out ls

/-- Number of outputs for `n` inputs. -/
def netOut : Nat → List NetLayer → Nat
  | n, [] => n
  | _, l :: ls => netOut l.out ls

/-- The parameters of a network. -/
def params (ls : List NetLayer) : List Nat := ls.flatMap fun l => [l.w, l.bias]

end Verif.Spec
