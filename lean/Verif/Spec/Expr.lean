import Verif.Model.Expr
/-!
# Specification of operator construction and differentiation
-/
namespace Verif.Spec
open Expr
open scoped Classical

/-- Element `i` of a constant, a single element being broadcast. -/
def constAt (d : List ℝ) (i : Nat) : Option ℝ := if d.length = 1 then d[0]? else d[i]?

/-- Element `i` of the value of node `n` is `v`, when element `i` of leaf `x` is `ρ x`. -/
inductive Val (S : St) (ρ : Nat → ℝ) (i : Nat) : Nat → ℝ → Prop where
  | leaf {n : Nat} {tr : Bool} : S.nodes[n]? = some (.leaf tr) → Val S ρ i n (ρ n)
  | const {n : Nat} {d : List ℝ} {v : ℝ} : S.nodes[n]? = some (.const d) → constAt d i = some v → Val S ρ i n v
  | un {n : Nat} {k : K1} {a : Nat} {u : ℝ} : S.nodes[n]? = some (.un k a) → Val S ρ i a u → Val S ρ i n (k.fn u)
  | bin {n : Nat} {k : K2} {a b : Nat} {u w : ℝ} : S.nodes[n]? = some (.bin k a b) → Val S ρ i a u → Val S ρ i b w →
      Val S ρ i n (k.fn u w)

/-- What the caller of a unary operator means, where it has a meaning over the reals. -/
noncomputable def meant1 : K1 → ℝ → Option ℝ
  | .ident, x => some x
  | .neg, x => some (-x)
  | .abs, x => some |x|
  | .sin, x => some (Real.sin x)
  | .cos, x => some (Real.cos x)
  | .tan, x => if Real.cos x = 0 then none else some (Real.sin x / Real.cos x)
  | .csc, x => if Real.sin x = 0 then none else some (Real.sin x)⁻¹
  | .sec, x => if Real.cos x = 0 then none else some (Real.cos x)⁻¹
  | .cot, x => if Real.sin x = 0 then none else some (Real.cos x / Real.sin x)
  | .exp, x => some (Real.exp x)
  | .sqrt, x => if x < 0 then none else some (Real.sqrt x)
  | .round, x => some (if x < 0 then -⌊|x| + 1 / 2⌋ else ⌊|x| + 1 / 2⌋)
  | .log, x => if x ≤ 0 then none else some (Real.log x)
  | .pow s, x => if 0 < x ∨ (x = 0 ∧ 0 ≤ s) ∨ (x < 0 ∧ ∃ n : ℤ, s = n) then some (x ^ s) else none
  | .clip lo hi, x => some (max (min lo hi) (min (max lo hi) x))
  | .addL c, x => some (c + x)
  | .addR c, x => some (x + c)
  | .subL c, x => some (c - x)
  | .subR c, x => some (x - c)
  | .mulL c, x => some (c * x)
  | .mulR c, x => some (x * c)
  | .divL c, x => if x = 0 then none else some (c / x)
  | .divR c, x => if c = 0 then none else some (x / c)
  | .condL _ cmp c, x => some (if cmp c x = true then 1 else 0)
  | .condR _ cmp c, x => some (if cmp x c = true then 1 else 0)

/-- What the caller of a binary operator means. -/
noncomputable def meant2 : K2 → ℝ → ℝ → Option ℝ
  | .add, x, y => some (x + y)
  | .sub, x, y => some (x - y)
  | .mul, x, y => some (x * y)
  | .div, x, y => if y = 0 then none else some (x / y)
  | .cond _ cmp, x, y => some (if cmp x y = true then 1 else 0)

/-- No two different operations asked for during the history have the same name. -/
structure NoClash (fmt : ℝ → List Char) (S : St) : Prop where
  un : ∀ k ∈ S.asked1, ∀ k' ∈ S.asked1, k.label fmt = k'.label fmt → k = k'
  bin : ∀ k ∈ S.asked2, ∀ k' ∈ S.asked2, k.label = k'.label → k = k'
  mixed : ∀ k ∈ S.asked1, ∀ k' ∈ S.asked2, k.label fmt ≠ k'.label

/-- `conditional` is left out: its names do not tell the two scalar forms apart. -/
def NotCond1 : K1 → Prop
  | .condL _ _ _ => False
  | .condR _ _ _ => False
  | _ => True
def NotCond2 : K2 → Prop
  | .cond _ _ => False
  | _ => True
def NotCond : Call → Prop
  | .un k _ => NotCond1 k
  | .bin k _ _ => NotCond2 k
  | _ => True

/-- The words used in operation names. -/
def words : List (List Char) :=
  ["add".toList, "sub".toList, "mul".toList, "div".toList, "pow".toList]

/-- Printed numbers contain no underscore and are not one of the words; true of every `double`. -/
def Printable (fmt : ℝ → List Char) : Prop := ∀ c, '_' ∉ fmt c ∧ fmt c ∉ words

/-- The numbers in an operation. -/
def numbers : K1 → List ℝ
  | .pow s => [s]
  | .clip lo hi => [lo, hi]
  | .addL c => [c]
  | .addR c => [c]
  | .subL c => [c]
  | .subR c => [c]
  | .mulL c => [c]
  | .mulR c => [c]
  | .divL c => [c]
  | .divR c => [c]
  | .condL _ _ c => [c]
  | .condR _ _ c => [c]
  | _ => []

/-- Different numbers used in the history are printed differently. -/
def Distinguishes (fmt : ℝ → List Char) (S : St) : Prop :=
  ∀ k ∈ S.asked1, ∀ k' ∈ S.asked1, ∀ c ∈ numbers k, ∀ c' ∈ numbers k', fmt c = fmt c' → c = c'

/-- The operation is differentiable at `x`, and so are the operations its derivative is made of
(`csc' = -1/(sin tan)`). `abs`, `round`, `clip_val` and `conditional` are not counted as differentiable. -/
def SmoothAt1 : K1 → ℝ → Prop
  | .tan, x => Real.cos x ≠ 0
  | .csc, x => Real.sin x ≠ 0 ∧ Real.cos x ≠ 0
  | .sec, x => Real.cos x ≠ 0
  | .cot, x => Real.sin x ≠ 0
  | .sqrt, x => 0 < x
  | .log, x => 0 < x
  | .pow s, x => 0 < x ∨ (x ≠ 0 ∧ ∃ n : ℤ, s = n) ∨ ∃ n : ℕ, s = n
  | .divL _, x => x ≠ 0
  | .abs, _ => False
  | .round, _ => False
  | .clip _ _, _ => False
  | .condL _ _ _, _ => False
  | .condR _ _ _, _ => False
  | _, _ => True

def SmoothAt2 : K2 → ℝ → ℝ → Prop
  | .div, _, y => y ≠ 0
  | .cond _ _, _, _ => False
  | _, _, _ => True

/-- Every operation below node `n` is differentiable at the values of its arguments. -/
inductive Smooth (S : St) (ρ : Nat → ℝ) (i : Nat) : Nat → Prop where
  | leaf {n : Nat} {tr : Bool} : S.nodes[n]? = some (.leaf tr) → Smooth S ρ i n
  | const {n : Nat} {d : List ℝ} : S.nodes[n]? = some (.const d) → (∃ v, constAt d i = some v) → Smooth S ρ i n
  | un {n : Nat} {k : K1} {a : Nat} {u : ℝ} : S.nodes[n]? = some (.un k a) → Smooth S ρ i a → Val S ρ i a u →
      SmoothAt1 k u → Smooth S ρ i n
  | bin {n : Nat} {k : K2} {a b : Nat} {u w : ℝ} : S.nodes[n]? = some (.bin k a b) → Smooth S ρ i a → Smooth S ρ i b →
      Val S ρ i a u → Val S ρ i b w → SmoothAt2 k u w → Smooth S ρ i n

/-- The assignment `ρ` with leaf `x` changed to `t`. -/
def change (ρ : Nat → ℝ) (x : Nat) (t : ℝ) : Nat → ℝ := fun y => if y = x then t else ρ y

end Verif.Spec
