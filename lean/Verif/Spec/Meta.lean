import Verif.Model.Meta
import Verif.Spec.Ask
/-!
# Specification vocabulary for metadata (C81)
-/
namespace Verif.Spec
open Ask (Arith)

/-- Node n takes its metadata after node a: a is the (first) argument of a unary or scalar operation, a norm, `as_constant`
or a conditional, or what `clip_norm` clips. -/
def TakesAfter (S : Ask.St) (n a : Nat) : Prop :=
  ∃ rest, (∃ k, IsOp S n (.elem k) (a :: rest)) ∨ IsOp S n .asConst (a :: rest) ∨ IsOp S n .l2norm (a :: rest) ∨
    (∃ name cmp, IsOp S n (.cond name cmp) (a :: rest)) ∨ ∃ c l, IsOp S n (.clipNorm c) (l :: a :: rest)

/-- The call, returning r, sets the key of node n to v. -/
def Sets (c : Meta.Call) (r n : Nat) (key : List Char) (v : Nat) : Prop :=
  c = .set n key v ∨ (r = n ∧ key = "grouping".toList ∧ ∃ b, c = .reduceGrad v b)

/-- A history with the nodes returned. -/
inductive Runs (fmt : ℝ → List Char) : Meta.St → List (Meta.Call × Nat) → Meta.St → Prop where
  | nil (S : Meta.St) : Runs fmt S [] S
  | snoc {S S1 S2 : Meta.St} {tr : List (Meta.Call × Nat)} {h : Expr.Hash} {c : Meta.Call} {r : Nat} :
      Runs fmt S tr S1 → Meta.step ⟨h, fmt⟩ c S1 = .ok (r, S2) → Runs fmt S (tr ++ [(c, r)]) S2

/-- The key of node n was last set to v. -/
inductive LastSet (n : Nat) (key : List Char) (v : Nat) : List (Meta.Call × Nat) → Prop where
  | now {tr : List (Meta.Call × Nat)} {c : Meta.Call} {r : Nat} : Sets c r n key v → LastSet n key v (tr ++ [(c, r)])
  | before {tr : List (Meta.Call × Nat)} {c : Meta.Call} {r : Nat} : (∀ w, ¬ Sets c r n key w) → LastSet n key v tr → LastSet n key v (tr ++ [(c, r)])

/-- The key of node n was never set. -/
def NeverSet (n : Nat) (key : List Char) (tr : List (Meta.Call × Nat)) : Prop := ∀ c r v, (c, r) ∈ tr → ¬ Sets c r n key v

/-- Metadata is only set on nodes nobody takes after yet (or left as it is). -/
inductive Early (fmt : ℝ → List Char) : Meta.St → List (Meta.Call × Nat) → Meta.St → Prop where
  | nil (S : Meta.St) : Early fmt S [] S
  | snoc {S S1 S2 : Meta.St} {tr : List (Meta.Call × Nat)} {h : Expr.Hash} {c : Meta.Call} {r : Nat} :
      Early fmt S tr S1 → Meta.step ⟨h, fmt⟩ c S1 = .ok (r, S2) →
      (∀ n key v, Sets c r n key v → ∀ k, TakesAfter S1.base k n → S1.data n key = some v) → Early fmt S (tr ++ [(c, r)]) S2

/-- Node n is o of a and b along the axes the two are grouped by: broadcast of b along the axis of a, of a along that of b,
element by element if neither has one or they differ. -/
def Grouped (S : Ask.St) (o : Arith) (ga gb : Option Nat) (a b n : Nat) : Prop :=
  (∃ i, ga = some i ∧ (gb = none ∨ gb = some i) ∧ Binary S o (.axial o false i) a b n) ∨
  (∃ j, ga = none ∧ gb = some j ∧ Binary S o (.axial o true j) a b n) ∨
  ((ga = none ∧ gb = none ∨ ∃ i j, ga = some i ∧ gb = some j ∧ i ≠ j) ∧ Binary S o (.arith o) a b n)

end Verif.Spec
