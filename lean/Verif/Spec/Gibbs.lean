import Verif.Spec.Rbm
import Verif.Model.Gibbs
/-!
# Specification: binomial sampling and Gibbs chains on paper
-/
namespace Verif.Spec
open Backprop Finset

/-- What the standard library promises of binomial random numbers: between 0 and the number of trials, and certain when
the probability is 0 or 1. -/
structure LawfulDraw (draw : Draw) : Prop where
  le : ∀ i n p, 0 ≤ p → p ≤ 1 → draw i n p ≤ n
  never : ∀ i n, draw i n 0 = 0
  always : ∀ i n, draw i n 1 = n

/-- A batch of vectors of `n` units, unit `i` of vector `j` being on with probability `p i j`, drawn one vector after
the other. -/
noncomputable def sampled (n : Nat) (draw : Draw) (p : Nat → Nat → ℝ) : Nat → Nat → ℝ := fun i j => (draw (i + n * j) 1 (p i j) : Nat)

/-- Hidden units drawn given visible ones. -/
noncomputable def Boltzmann.drawHidden (M : Boltzmann) (draw : Draw) (v : Nat → Nat → ℝ) : Nat → Nat → ℝ :=
  sampled M.m draw (fun i j => M.hiddenOn (fun z => v z j) i)

/-- Visible units drawn given hidden ones. -/
noncomputable def Boltzmann.drawVisible (M : Boltzmann) (draw : Draw) (h : Nat → Nat → ℝ) : Nat → Nat → ℝ :=
  sampled M.n draw (fun z j => M.visibleOn (fun i => h i j) z)

/-- `k` rounds of Gibbs sampling from the visible and hidden units `s`: visible given hidden, hidden given visible. -/
noncomputable def Boltzmann.gibbs (M : Boltzmann) : Nat → (Nat → Draw) → (Nat → Nat → ℝ) × (Nat → Nat → ℝ) → (Nat → Nat → ℝ) × (Nat → Nat → ℝ)
  | 0, _, s => s
  | k + 1, D, s => M.gibbs k (fun i => D (i + 2)) (M.drawVisible (D 0) s.2, M.drawHidden (D 1) (M.drawVisible (D 0) s.2))

/-- The values with the units of a chain in leaves `c` and `y`. -/
noncomputable def withChain (c y : Nat) (s : (Nat → Nat → ℝ) × (Nat → Nat → ℝ)) (val : Backprop.Leaf → Nat → Nat → ℝ) : Backprop.Leaf → Nat → Nat → ℝ :=
  fun l => if l = ⟨false, y⟩ then s.2 else if l = ⟨false, c⟩ then s.1 else val l

/-- The values with the vectors of `data` in leaf `x`, one vector after the other. -/
def withInput (n x : Nat) (data : List ℝ) (val : Backprop.Leaf → Nat → Nat → ℝ) : Backprop.Leaf → Nat → Nat → ℝ :=
  fun l i j => if l = ⟨false, x⟩ then data.getD (i + n * j) 0 else val l i j

/-- The end of the chain of contrastive divergence: hidden units drawn given the input, then `k` rounds. -/
noncomputable def cdChain (r : RbmVars) (n m x c k : Nat) (D : Nat → Draw) (val : Backprop.Leaf → Nat → Nat → ℝ) : (Nat → Nat → ℝ) × (Nat → Nat → ℝ) :=
  (machine r n m val).gibbs k (fun i => D (i + 1)) (val ⟨false, c⟩, (machine r n m val).drawHidden (D 0) (val ⟨false, x⟩))

/-- Contrastive divergence on one batch after the other: each step is `CdStep` for the batch and the end of a fresh
chain. -/
inductive CdRun (r : RbmVars) (n m B x c y k : Nat) (lr : ℝ) : List (List ℝ × (Nat → Draw)) → (Backprop.Leaf → Nat → Nat → ℝ) → (Backprop.Leaf → Nat → Nat → ℝ) → Prop
  | nil (val) : CdRun r n m B x c y k lr [] val val
  | cons {data D rest val val' val''} :
      CdStep r n m B x c lr (withChain c y (cdChain r n m x c k D (withInput n x data val)) (withInput n x data val)) val' →
      CdRun r n m B x c y k lr rest val' val'' → CdRun r n m B x c y k lr ((data, D) :: rest) val val''

/-- One step of persistent contrastive divergence: a step for the end of the chain that starts from the state in
variable `s`, and the state becomes the chain's hidden units. -/
structure PcdStep (r : RbmVars) (n m B x c y s k : Nat) (lr : ℝ) (D : Nat → Draw) (val val' : Backprop.Leaf → Nat → Nat → ℝ) : Prop where
  step : ∃ mid, CdStep r n m B x c lr (withChain c y ((machine r n m val).gibbs k D (val ⟨false, c⟩, val ⟨true, s⟩)) val) mid ∧
    ∀ l, l ≠ ⟨true, s⟩ → val' l = mid l
  state : val' ⟨true, s⟩ = ((machine r n m val).gibbs k D (val ⟨false, c⟩, val ⟨true, s⟩)).2

/-- Persistent contrastive divergence on one batch after the other. -/
inductive PcdRun (r : RbmVars) (n m B x c y s k : Nat) (lr : ℝ) : List (List ℝ × (Nat → Draw)) → (Backprop.Leaf → Nat → Nat → ℝ) → (Backprop.Leaf → Nat → Nat → ℝ) → Prop
  | nil (val) : PcdRun r n m B x c y s k lr [] val val
  | cons {data D rest val val' val''} :
      PcdStep r n m B x c y s k lr D (withInput n x data val) val' →
      PcdRun r n m B x c y s k lr rest val' val'' → PcdRun r n m B x c y s k lr ((data, D) :: rest) val val''

end Verif.Spec
