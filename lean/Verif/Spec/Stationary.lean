import Verif.Spec.Gibbs
import Verif.Spec.Layer
import Mathlib.MeasureTheory.Measure.Real
/-!
# Specification: fair random numbers, and the distribution of a Boltzmann machine
-/
namespace Verif.Spec
open Finset MeasureTheory

/-- `B` vectors of `k` bits. -/
abbrev BitBatch (k B : Nat) := Fin B → Fin k → Bool

/-- The numbers `x` hold the bits: unit `i` of vector `j`. -/
def IsBits {k B : Nat} (x : Nat → Nat → ℝ) (b : BitBatch k B) : Prop := ∀ (j : Fin B) (i : Fin k), x i j = if b j i then 1 else 0

/-- The bits as numbers. -/
def bitMatrix {k B : Nat} (b : BitBatch k B) : Nat → Nat → ℝ := fun i j => if hj : j < B then ofBits (b ⟨j, hj⟩) i else 0

/-- The tensor holds the bits. -/
def ShowsBits {k B : Nat} (t : Tensor ℝ) (b : BitBatch k B) : Prop := Batch t k B (bitMatrix b)

/-- The Boltzmann distribution: a visible and a hidden vector have a probability proportional to `exp (-energy)`. -/
noncomputable def Boltzmann.pairLaw (M : Boltzmann) (v : Fin M.n → Bool) (h : Fin M.m → Bool) : ℝ :=
  Real.exp (-M.energy (ofBits v) (ofBits h)) / ∑ v' ∈ bits M.n, ∑ h' ∈ bits M.m, Real.exp (-M.energy (ofBits v') (ofBits h'))

/-- A batch of `B` independent pairs. -/
noncomputable def Boltzmann.law (M : Boltzmann) {B : Nat} (v : BitBatch M.n B) (h : BitBatch M.m B) : ℝ := ∏ j, M.pairLaw (v j) (h j)

/-- The distribution of the hidden vectors. -/
noncomputable def Boltzmann.hiddenLaw (M : Boltzmann) {B : Nat} (h : BitBatch M.m B) : ℝ := ∑ v : BitBatch M.n B, M.law v h

/-- The variables of an `rbm` hold the weights and biases of `M`. -/
def IsMachine (M : Boltzmann) (r : Backprop.RbmVars) (shp : Backprop.Leaf → List Nat) (ρ : Backprop.Leaf → Tensor ℝ) : Prop :=
  ∃ val, LeavesHold ρ shp val ∧ machine r M.n M.m val = M

/-- Fair random numbers, that know nothing of `X`: any finite collection of different draws, each of one trial with its
own probability, falls out in a given way with the product of the probabilities, whatever `X` is. -/
structure FairDraws {Ω S : Type} [MeasurableSpace Ω] (P : Measure Ω) (X : Ω → S) (D : Ω → Nat → Draw) : Prop where
  lawful : ∀ ω t, LawfulDraw (D ω t)
  seen : ∀ s, MeasurableSet {ω | X ω = s}
  drawn : ∀ t i p a, MeasurableSet {ω | D ω t i 1 p = a}
  fair : ∀ (s : S) (ι : Type) [Fintype ι] (q : ι → Nat × Nat) (p : ι → ℝ) (b : ι → Bool), Function.Injective q → (∀ x, 0 ≤ p x ∧ p x ≤ 1) →
    P.real {ω | X ω = s ∧ ∀ x, D ω (q x).1 (q x).2 1 (p x) = if b x then 1 else 0} =
      P.real {ω | X ω = s} * ∏ x, if b x then p x else 1 - p x

end Verif.Spec
