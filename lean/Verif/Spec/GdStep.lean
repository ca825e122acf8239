import Verif.Spec.Backprop
import Verif.Model.GdStep
import Mathlib.Analysis.Calculus.Deriv.Basic
/-!
# Specification of gradient descent
-/
namespace Verif.Spec
open Backprop
open scoped Classical

/-- A network with its input and target placeholders, for batches of `B` vectors of length `n`. -/
structure Setup where
  ls : List NetLayer
  x : Nat
  y : Nat
  n : Nat
  B : Nat

/-- The squared error on paper. -/
noncomputable def Setup.error (S : Setup) (val : Backprop.Leaf → Nat → Nat → ℝ) : ℝ := sqError val S.ls S.n S.B ⟨false, S.x⟩ ⟨false, S.y⟩

/-- The shapes fit, every layer has its own parameters. -/
structure Setup.Fits (S : Setup) (shp : Backprop.Leaf → List Nat) : Prop where
  input : shp ⟨false, S.x⟩ = [S.n, S.B] ∨ (S.B = 1 ∧ shp ⟨false, S.x⟩ = [S.n])
  target : shp ⟨false, S.y⟩ = [netOut S.n S.ls, S.B] ∨ (S.B = 1 ∧ shp ⟨false, S.y⟩ = [netOut S.n S.ls])
  pos : 0 < S.n ∧ 0 < S.B
  other : S.x ≠ S.y
  net : NetShapes shp S.n S.ls
  nodup : (params S.ls).Nodup

/-- The leaves' tensors `ρ` have shapes `shp` and hold `val`. -/
def LeavesHold (ρ : Backprop.Leaf → Tensor ℝ) (shp : Backprop.Leaf → List Nat) (val : Backprop.Leaf → Nat → Nat → ℝ) : Prop :=
  ∀ l, Holds (ρ l) (shp l) (fun c => val l (c.getD 0 0) (c.getD 1 0))

/-- `[p, q]` is an entry of variable `v`. -/
def IsEntry (shp : Backprop.Leaf → List Nat) (v p q : Nat) : Prop := p < (leafSize (shp ⟨true, v⟩)).1 ∧ q < (leafSize (shp ⟨true, v⟩)).2

/-- One step of gradient descent: every entry of every parameter moves against its partial derivative of the error, all
of them taken before the step, and nothing else changes. -/
structure Setup.Step (S : Setup) (shp : Backprop.Leaf → List Nat) (lr : ℝ) (val val' : Backprop.Leaf → Nat → Nat → ℝ) : Prop where
  moved : ∀ v ∈ params S.ls, ∀ p q, IsEntry shp v p q →
    ∃ D, HasDerivAt (fun s => S.error (setAt val v p q s)) D (val ⟨true, v⟩ p q) ∧ val' ⟨true, v⟩ p q = val ⟨true, v⟩ p q - lr * D
  kept : ∀ l, (∀ v ∈ params S.ls, l ≠ ⟨true, v⟩) → val' l = val l

/-- The two placeholders set to the vectors of a sample, one vector of the batch after the other. -/
noncomputable def Setup.given (S : Setup) (s : List ℝ × List ℝ) (val : Backprop.Leaf → Nat → Nat → ℝ) : Backprop.Leaf → Nat → Nat → ℝ := fun l i j =>
  if l = ⟨false, S.x⟩ then s.1.getD (i + S.n * j) 0 else if l = ⟨false, S.y⟩ then s.2.getD (i + netOut S.n S.ls * j) 0 else val l i j

/-- Stochastic gradient descent: one step per sample. -/
inductive Setup.Descends (S : Setup) (shp : Backprop.Leaf → List Nat) (lr : ℝ) : List (List ℝ × List ℝ) → (Backprop.Leaf → Nat → Nat → ℝ) → (Backprop.Leaf → Nat → Nat → ℝ) → Prop where
  | nil {val : Backprop.Leaf → Nat → Nat → ℝ} : Setup.Descends S shp lr [] val val
  | cons {s : List ℝ × List ℝ} {ss : List (List ℝ × List ℝ)} {val val₁ val₂ : Backprop.Leaf → Nat → Nat → ℝ} :
      S.Step shp lr (S.given s val) val₁ → Setup.Descends S shp lr ss val₁ val₂ → Setup.Descends S shp lr (s :: ss) val val₂

/-- A list of variables is what an updater trains: the variables the error depends on, each once, in any order. -/
def Trains (vs : List Nat) (e : Term) : Prop := vs.Nodup ∧ ∀ v, v ∈ vs ↔ ¬Free v e

/-- A sample has one vector per element of the batch. -/
def Sized (S : Setup) (s : List ℝ × List ℝ) : Prop := s.1.length = S.n * S.B ∧ s.2.length = netOut S.n S.ls * S.B

end Verif.Spec
