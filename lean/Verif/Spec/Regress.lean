import Verif.Spec.GdStep
/-!
# Specification of linear regression (C89)

`n` inputs, `o` outputs, `B` samples; `x z j` is input `z` of sample `j`, `y i j` the wanted output `i`.
-/
namespace Verif.Spec
open Backprop Finset

/-- What is missing from output `i` for sample `j`. -/
def shortfall (n : Nat) (x y : Nat → Nat → ℝ) (W : Nat → Nat → ℝ) (b : Nat → ℝ) (i j : Nat) : ℝ := y i j - ((∑ z ∈ range n, x z j * W i z) + b i)

/-- The sum of squared errors of a linear model. -/
def linError (n o B : Nat) (x y : Nat → Nat → ℝ) (W : Nat → Nat → ℝ) (b : Nat → ℝ) : ℝ := ∑ i ∈ range o, ∑ j ∈ range B, shortfall n x y W b i j ^ 2

/-- The squared distance of two linear models. -/
def modelDist (n o : Nat) (W : Nat → Nat → ℝ) (b : Nat → ℝ) (W' : Nat → Nat → ℝ) (b' : Nat → ℝ) : ℝ :=
  ∑ i ∈ range o, ((∑ z ∈ range n, (W i z - W' i z) ^ 2) + (b i - b' i) ^ 2)

/-- The size of the inputs: the sum over the samples of `1 + |x|²`. -/
def inputSize (n B : Nat) (x : Nat → Nat → ℝ) : ℝ := ∑ j ∈ range B, ((∑ z ∈ range n, x z j ^ 2) + 1)

/-- The inputs and the wanted outputs of a sample. -/
def Setup.xs (S : Setup) (s : List ℝ × List ℝ) (z j : Nat) : ℝ := s.1.getD (z + S.n * j) 0
def Setup.ys (S : Setup) (s : List ℝ × List ℝ) (i j : Nat) : ℝ := s.2.getD (i + netOut S.n S.ls * j) 0

/-- The network is one layer without activation: a linear model. -/
def Setup.Linear (S : Setup) (l : NetLayer) : Prop := S.ls = [l] ∧ l.act = .identity

/-- The squared error of the linear model whose parameters are in `val`, for a sample. -/
def Setup.linError (S : Setup) (l : NetLayer) (s : List ℝ × List ℝ) (val : Backprop.Leaf → Nat → Nat → ℝ) : ℝ :=
  Spec.linError S.n l.out S.B (S.xs s) (S.ys s) (val ⟨true, l.w⟩) (fun i => val ⟨true, l.bias⟩ i 0)

end Verif.Spec
