import Verif.Spec.Stationary
/-!
# Specification: the likelihood of data under a Boltzmann machine
-/
namespace Verif.Spec
open Finset

/-- The probability of a visible vector: that of its pairs with all hidden vectors. -/
noncomputable def Boltzmann.visibleProb (M : Boltzmann) (v : Nat → ℝ) : ℝ :=
  (∑ h ∈ bits M.m, Real.exp (-M.energy v (ofBits h))) / ∑ v' ∈ bits M.n, ∑ h' ∈ bits M.m, Real.exp (-M.energy (ofBits v') (ofBits h'))

/-- The mean log-likelihood of a batch of `B` vectors. -/
noncomputable def Boltzmann.meanLogProb (M : Boltzmann) (B : Nat) (x : Nat → Nat → ℝ) : ℝ :=
  (∑ j ∈ range B, Real.log (M.visibleProb (fun z => x z j))) / B

/-- The values with the bits `b` in variable `s`. -/
noncomputable def withState {k B : Nat} (s : Nat) (b : BitBatch k B) (val : Backprop.Leaf → Nat → Nat → ℝ) : Backprop.Leaf → Nat → Nat → ℝ :=
  fun l => if l = ⟨true, s⟩ then bitMatrix b else val l

/-- Entry `[p, q]` of a matrix of the given size (or of a vector, for one column) is `a`. -/
def HasEntry (t : Tensor ℝ) (size : Nat × Nat) (p q : Nat) (a : ℝ) : Prop := ∃ f, Batch t size.1 size.2 f ∧ f p q = a

end Verif.Spec
