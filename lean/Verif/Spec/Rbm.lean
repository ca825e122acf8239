import Verif.Spec.GdStep
import Verif.Model.Rbm
import Mathlib.Analysis.SpecialFunctions.Log.Basic
/-!
# Specification: restricted Boltzmann machines on paper
-/
namespace Verif.Spec
open Backprop Finset
open scoped Classical

/-- Parameters of a machine with `n` visible and `m` hidden units. -/
structure Boltzmann where
  n : Nat
  m : Nat
  W : Nat → Nat → ℝ
  hb : Nat → ℝ
  vb : Nat → ℝ

/-- The energy of a visible vector and a hidden vector. -/
noncomputable def Boltzmann.energy (M : Boltzmann) (v h : Nat → ℝ) : ℝ :=
  -(∑ i ∈ range M.m, ∑ z ∈ range M.n, h i * M.W i z * v z) - ∑ i ∈ range M.m, M.hb i * h i - ∑ z ∈ range M.n, M.vb z * v z

/-- The free energy of a visible vector. -/
noncomputable def Boltzmann.freeEnergy (M : Boltzmann) (v : Nat → ℝ) : ℝ :=
  -(∑ i ∈ range M.m, Real.log (1 + Real.exp (∑ z ∈ range M.n, v z * M.W i z + M.hb i))) - ∑ z ∈ range M.n, M.vb z * v z

/-- Mean free energy of a batch of `B` vectors. -/
noncomputable def Boltzmann.meanFree (M : Boltzmann) (B : Nat) (v : Nat → Nat → ℝ) : ℝ :=
  (∑ j ∈ range B, M.freeEnergy (fun z => v z j)) / B

/-- The logistic function. -/
noncomputable def logistic (x : ℝ) : ℝ := 1 / (1 + Real.exp (-x))

/-- The vectors of zeros and ones of length `k`. -/
def bits (k : Nat) : Finset (Fin k → Bool) := Finset.univ

/-- A vector of bits as numbers. -/
def ofBits {k : Nat} (h : Fin k → Bool) : Nat → ℝ := fun i => if hi : i < k then (if h ⟨i, hi⟩ then 1 else 0) else 0

/-- Probability, given the visible vector `v`, that hidden unit `i` is on: the weight `exp (-energy)` of the hidden vectors
with unit `i` on, among all. -/
noncomputable def Boltzmann.hiddenOn (M : Boltzmann) (v : Nat → ℝ) (i : Nat) : ℝ :=
  (∑ h ∈ (bits M.m).filter (fun h => ofBits h i = 1), Real.exp (-M.energy v (ofBits h))) / ∑ h ∈ bits M.m, Real.exp (-M.energy v (ofBits h))

/-- Probability, given the hidden vector `h`, that visible unit `z` is on. -/
noncomputable def Boltzmann.visibleOn (M : Boltzmann) (h : Nat → ℝ) (z : Nat) : ℝ :=
  (∑ v ∈ (bits M.n).filter (fun v => ofBits v z = 1), Real.exp (-M.energy (ofBits v) h)) / ∑ v ∈ bits M.n, Real.exp (-M.energy (ofBits v) h)

/-- The machine whose parameters are in the leaves. -/
def machine (r : RbmVars) (n m : Nat) (val : Backprop.Leaf → Nat → Nat → ℝ) : Boltzmann :=
  ⟨n, m, val ⟨true, r.w⟩, fun i => val ⟨true, r.hb⟩ i 0, fun z => val ⟨true, r.vb⟩ z 0⟩

/-- The shapes of an `rbm`'s variables, of its input and of the end of the chain, for batches of `B` vectors. -/
structure RbmFits (r : RbmVars) (n m B x c : Nat) (shp : Backprop.Leaf → List Nat) : Prop where
  pos : 0 < n ∧ 0 < m ∧ 0 < B
  weight : shp ⟨true, r.w⟩ = [m, n]
  hbias : shp ⟨true, r.hb⟩ = [m]
  vbias : shp ⟨true, r.vb⟩ = [n]
  input : shp ⟨false, x⟩ = [n, B] ∨ (B = 1 ∧ shp ⟨false, x⟩ = [n])
  chain : shp ⟨false, c⟩ = [n, B] ∨ (B = 1 ∧ shp ⟨false, c⟩ = [n])
  vars : r.w ≠ r.hb ∧ r.w ≠ r.vb ∧ r.hb ≠ r.vb
  other : x ≠ c

/-- Mean over the batch of the log-probability of the visible vectors `v`, given for each unit the probability `p` that
it is on. -/
noncomputable def logLikelihood (n B : Nat) (v p : Nat → Nat → ℝ) : ℝ :=
  (∑ j ∈ range B, ∑ z ∈ range n, (v z j * Real.log (p z j) + (1 - v z j) * Real.log (1 - p z j))) / B

/-- A vector with its first bit flipped. -/
def flipFirst (v : Nat → ℝ) : Nat → ℝ := fun z => if z = 0 then 1 - v 0 else v z

/-- The pseudo-likelihood of a batch, estimated from the first bit: the number of bits times the log-probability of that
bit given the others. -/
noncomputable def Boltzmann.pseudoLikelihood (M : Boltzmann) (B : Nat) (v : Nat → Nat → ℝ) : ℝ :=
  (∑ j ∈ range B, M.n * Real.log (logistic (M.freeEnergy (flipFirst (fun z => v z j)) - M.freeEnergy (fun z => v z j)))) / B

/-- The cost of contrastive divergence: mean free energy of the data minus that of the end of the chain. -/
noncomputable def cdCost (r : RbmVars) (n m B x c : Nat) (val : Backprop.Leaf → Nat → Nat → ℝ) (data : Backprop.Leaf → Nat → Nat → ℝ) : ℝ :=
  (machine r n m val).meanFree B (data ⟨false, x⟩) - (machine r n m val).meanFree B (data ⟨false, c⟩)

/-- One step of contrastive divergence: the parameters move by the difference of the statistics of the data and of the
chain, with the hidden units at their probability given the visible ones; nothing else changes. -/
structure CdStep (r : RbmVars) (n m B x c : Nat) (lr : ℝ) (val val' : Backprop.Leaf → Nat → Nat → ℝ) : Prop where
  weight : ∀ p < m, ∀ q < n, val' ⟨true, r.w⟩ p q = val ⟨true, r.w⟩ p q +
    lr / B * (∑ j ∈ range B, val ⟨false, x⟩ q j * (machine r n m val).hiddenOn (fun z => val ⟨false, x⟩ z j) p -
      ∑ j ∈ range B, val ⟨false, c⟩ q j * (machine r n m val).hiddenOn (fun z => val ⟨false, c⟩ z j) p)
  hidden : ∀ p < m, val' ⟨true, r.hb⟩ p 0 = val ⟨true, r.hb⟩ p 0 +
    lr / B * (∑ j ∈ range B, (machine r n m val).hiddenOn (fun z => val ⟨false, x⟩ z j) p -
      ∑ j ∈ range B, (machine r n m val).hiddenOn (fun z => val ⟨false, c⟩ z j) p)
  visible : ∀ p < n, val' ⟨true, r.vb⟩ p 0 = val ⟨true, r.vb⟩ p 0 +
    lr / B * (∑ j ∈ range B, val ⟨false, x⟩ p j - ∑ j ∈ range B, val ⟨false, c⟩ p j)
  kept : ∀ l, l ≠ ⟨true, r.w⟩ → l ≠ ⟨true, r.hb⟩ → l ≠ ⟨true, r.vb⟩ → val' l = val l

end Verif.Spec
