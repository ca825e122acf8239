/-!
# Specification vocabulary for shapes

Written without the model: mathematical notions a reader of the properties knows.
-/
namespace Verif.Spec

/-- Every extent known and at least one extent. -/
def Full (s : List Nat) : Prop := s ≠ [] ∧ ∀ d ∈ s, 0 < d

instance (s : List Nat) : Decidable (Full s) := by unfold Full; infer_instance

/-- Product of the extents (1 for the empty list). -/
def vol : List Nat → Nat
  | [] => 1
  | d :: ds => d * vol ds

/-- `c` is a coordinate in range of `s` in every dimension. -/
def InRange (s c : List Nat) : Prop :=
  c.length = s.length ∧ ∀ i, i < s.length → c.getD i 0 < s.getD i 0

/-- Column-major flat index: `c₀ + d₀*(c₁ + d₁*(c₂ + ...))`. -/
def flat : List Nat → List Nat → Nat
  | d :: ds, c :: cs => c + d * flat ds cs
  | _, _ => 0

/-- Column-major coordinate of an index. -/
def coords : List Nat → Nat → List Nat
  | [], _ => []
  | d :: ds, i => (i % d) :: coords ds (i / d)

/-- `t` is `s` without its leading and trailing ones. -/
def TrimOf (s t : List Nat) : Prop :=
  ∃ m n, s = List.replicate m 1 ++ t ++ List.replicate n 1 ∧
    t.head? ≠ some 1 ∧ t.getLast? ≠ some 1

/-- Pointwise: equal or one side unknown (0). -/
def DimsAgree (s t : List Nat) : Prop :=
  s.length = t.length ∧ ∀ i, i < s.length → s.getD i 0 = t.getD i 0 ∨ s.getD i 0 = 0 ∨ t.getD i 0 = 0

/-- `t` refines `s`: same rank, and every extent known in `s` is the same in `t`. -/
def Refines (t s : List Nat) : Prop :=
  t.length = s.length ∧ ∀ i, i < s.length → s.getD i 0 = 0 ∨ t.getD i 0 = s.getD i 0

end Verif.Spec
