import Verif.Model.Train
import Verif.Spec.Graph
/-! # Specification of training -/
namespace Verif.Spec
open Graph

variable {V : Type}

/-- The value of a variable before and after an update by `b`; a variable without a value stays without. -/
def Moved (f : V → V → Outcome V) (b : V) (old new : Option V) : Prop :=
  (old = none ∧ new = none) ∨ ∃ a v, old = some a ∧ f a b = .ok v ∧ new = some v

/-- One round of training takes the leaf values `σ` to `σ'`: every trained leaf is moved by the value its step
expression has for `σ`; the others stay. -/
def Round (nodes : List (Def V)) (us : List (Act V)) (σ σ' : Nat → Option V) : Prop :=
  (∀ l, l ∉ us.map (·.leaf) → σ' l = σ l) ∧
  ∀ u ∈ us, (u.src = .skip → σ' u.leaf = σ u.leaf) ∧ (∀ b, u.src = .const b → Moved u.f b (σ u.leaf) (σ' u.leaf)) ∧
    ∀ n, u.src = .node n → ∃ b, Computes nodes σ n b ∧ Moved u.f b (σ u.leaf) (σ' u.leaf)

/-- Updates one after the other, each moved by the value its step has for the values at its turn. -/
inductive Sequential (nodes : List (Def V)) : List (Act V) → (Nat → Option V) → (Nat → Option V) → Prop where
  | nil {σ : Nat → Option V} : Sequential nodes [] σ σ
  | cons {u : Act V} {us : List (Act V)} {σ σ₁ σ₂ : Nat → Option V} :
      Round nodes [u] σ σ₁ → Sequential nodes us σ₁ σ₂ → Sequential nodes (u :: us) σ σ₂

/-- The step expressions belong to the graph of `root`. -/
def StepsLinked (nodes : List (Def V)) (root : Nat) (us : List (Act V)) : Prop :=
  ∀ u ∈ us, ∀ n, u.src = .node n → (∃ f args h, nodes[n]? = some (.op f args h)) ∧ Linked nodes root n

/-- `n` was the argument of an `ignore_subtree` made after the last `clear_ignore`; the latest call comes first. -/
def IgnoredSince : List IgnoreCall → Nat → Prop
  | [], _ => False
  | .subtree m :: cs, n => n = m ∨ IgnoredSince cs n
  | .clear :: _, _ => False

/-- Evaluating node `n` returns `v`. -/
def Reads (g : G V) (n : Nat) (v : V) : Prop := ∀ sch, ∃ g', eval sch n g = .ok (some v, g')

/-- Calls that leave private leaves alone, except for silent assignments; other assignments notify. -/
def Respects (src : Nat → Prop) : Call V → Prop
  | .newOp _ args _ => ∀ a ∈ args, ¬ src a
  | .assign n _ ntf => (src n ∧ ntf = false) ∨ (¬ src n ∧ ntf = true)
  | _ => True

end Verif.Spec
