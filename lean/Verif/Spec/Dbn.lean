import Verif.Spec.Gibbs
import Verif.Model.Dbn
/-!
# Specification: deep belief networks on paper
-/
namespace Verif.Spec
open Backprop Finset
open scoped Classical

/-- Number of units of the last machine of a stack over `n` visible units. -/
def stackOut : Nat → List (RbmVars × Nat) → Nat
  | n, [] => n
  | _, r :: rs => stackOut r.2 rs

/-- The activations of a stack of machines: for each, the probabilities of its hidden units given the activations
below. -/
noncomputable def stackAct (val : Backprop.Leaf → Nat → Nat → ℝ) : Nat → List (RbmVars × Nat) → (Nat → ℝ) → Nat → ℝ
  | _, [], a => a
  | n, r :: rs, a => stackAct val r.2 rs (fun i => (machine r.1 n r.2 val).hiddenOn a i)

/-- The activations of the last layer for the input vector `a`. -/
noncomputable def logit (d : DbnVars) (n : Nat) (val : Backprop.Leaf → Nat → Nat → ℝ) (a : Nat → ℝ) (i : Nat) : ℝ :=
  ∑ z ∈ range (stackOut n d.layers), stackAct val n d.layers a z * val ⟨true, d.w⟩ i z + val ⟨true, d.bias⟩ i 0

/-- The softmax of a vector of `m` numbers. -/
noncomputable def softmaxOf (m : Nat) (z : Nat → ℝ) (i : Nat) : ℝ := Real.exp (z i) / ∑ i ∈ range m, Real.exp (z i)

/-- The softmax of all numbers of a batch of `B` vectors of length `m` together. -/
noncomputable def batchSoftmax (m B : Nat) (z : Nat → Nat → ℝ) (i j : Nat) : ℝ := Real.exp (z i j) / ∑ i ∈ range m, ∑ j ∈ range B, Real.exp (z i j)

/-- The shapes of the machines of a stack. -/
def StackFits (shp : Backprop.Leaf → List Nat) : Nat → List (RbmVars × Nat) → Prop
  | _, [] => True
  | n, r :: rs => 0 < r.2 ∧ shp ⟨true, r.1.w⟩ = [r.2, n] ∧ shp ⟨true, r.1.hb⟩ = [r.2] ∧ shp ⟨true, r.1.vb⟩ = [n] ∧ StackFits shp r.2 rs

/-- The shapes of a network's variables and of the two placeholders, for batches of `B` vectors of length `n`; every
layer has its own variables. -/
structure DbnFits (d : DbnVars) (n B x y : Nat) (shp : Backprop.Leaf → List Nat) : Prop where
  pos : 0 < n ∧ 0 < B ∧ 0 < d.out
  input : shp ⟨false, x⟩ = [n, B] ∨ (B = 1 ∧ shp ⟨false, x⟩ = [n])
  target : shp ⟨false, y⟩ = [d.out, B] ∨ (B = 1 ∧ shp ⟨false, y⟩ = [d.out])
  stack : StackFits shp n d.layers
  weight : shp ⟨true, d.w⟩ = [d.out, stackOut n d.layers]
  bias : shp ⟨true, d.bias⟩ = [d.out]
  nodup : d.variables.Nodup

/-- The variables the output depends on: not the visible biases. -/
def usedVars (d : DbnVars) : List Nat := (d.layers.flatMap fun r => [r.1.w, r.1.hb]) ++ [d.w, d.bias]

/-- The cost of fine-tuning: minus the mean of the logarithms of all outputs. -/
noncomputable def tuneCostOf (d : DbnVars) (n B x : Nat) (val : Backprop.Leaf → Nat → Nat → ℝ) : ℝ :=
  -((∑ i ∈ range d.out, ∑ j ∈ range B, Real.log (batchSoftmax d.out B (fun i j => logit d n val (fun z => val ⟨false, x⟩ z j) i) i j)) / (d.out * B))

/-- What one call of the fine-tuning updater does: each entry of the variables in use moves along the derivatives `D` of
the activations of the last layer, weighted by one minus the output; nothing else changes. -/
structure TuneStep (d : DbnVars) (n B x : Nat) (shp : Backprop.Leaf → List Nat) (lr : ℝ) (val val' : Backprop.Leaf → Nat → Nat → ℝ) : Prop where
  moved : ∀ v ∈ usedVars d, ∀ p q, IsEntry shp v p q → ∃ D : Nat → Nat → ℝ,
    (∀ i < d.out, ∀ j < B, HasDerivAt (fun s => logit d n (setAt val v p q s) (fun z => val ⟨false, x⟩ z j) i) (D i j) (val ⟨true, v⟩ p q)) ∧
    val' ⟨true, v⟩ p q = val ⟨true, v⟩ p q + lr / (d.out * B) * ∑ i ∈ range d.out, ∑ j ∈ range B,
      (1 - batchSoftmax d.out B (fun i j => logit d n val (fun z => val ⟨false, x⟩ z j) i) i j) * D i j
  kept : ∀ l, (∀ v ∈ usedVars d, l ≠ ⟨true, v⟩) → val' l = val l

/-- One step of contrastive divergence for a machine whose visible vectors are `a` (data) and `b` (end of the chain). -/
structure CdStepOn (r : RbmVars) (n m B : Nat) (lr : ℝ) (a b : Nat → Nat → ℝ) (val val' : Backprop.Leaf → Nat → Nat → ℝ) : Prop where
  weight : ∀ p < m, ∀ q < n, val' ⟨true, r.w⟩ p q = val ⟨true, r.w⟩ p q +
    lr / B * (∑ j ∈ range B, a q j * (machine r n m val).hiddenOn (fun z => a z j) p -
      ∑ j ∈ range B, b q j * (machine r n m val).hiddenOn (fun z => b z j) p)
  hidden : ∀ p < m, val' ⟨true, r.hb⟩ p 0 = val ⟨true, r.hb⟩ p 0 +
    lr / B * (∑ j ∈ range B, (machine r n m val).hiddenOn (fun z => a z j) p -
      ∑ j ∈ range B, (machine r n m val).hiddenOn (fun z => b z j) p)
  visible : ∀ p < n, val' ⟨true, r.vb⟩ p 0 = val ⟨true, r.vb⟩ p 0 + lr / B * (∑ j ∈ range B, a p j - ∑ j ∈ range B, b p j)
  kept : ∀ l, l ≠ ⟨true, r.w⟩ → l ≠ ⟨true, r.hb⟩ → l ≠ ⟨true, r.vb⟩ → val' l = val l

/-- The end of the chain of contrastive divergence for a machine whose visible vectors are `a`: hidden units drawn given
`a`, then `k` rounds of Gibbs sampling. -/
noncomputable def cdChainOn (M : Boltzmann) (a v₀ : Nat → Nat → ℝ) (k : Nat) (D : Nat → Draw) : (Nat → Nat → ℝ) × (Nat → Nat → ℝ) :=
  M.gibbs k (fun i => D (i + 1)) (v₀, M.drawHidden (D 0) a)

end Verif.Spec
