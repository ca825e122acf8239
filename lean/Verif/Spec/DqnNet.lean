import Verif.Spec.GdStep
import Verif.Spec.Dqn
import Verif.Model.DqnNet
/-!
# Specification of deep Q-learning
-/
namespace Verif.Spec
open Backprop Dqn
open scoped Classical

/-- An agent's networks and placeholders, for observations of length `n` and mini-batches of `B` samples. -/
structure QSetup where
  net : QNet
  n : Nat
  B : Nat

/-- The number of actions. -/
def QSetup.acts (S : QSetup) : Nat := netOut S.n S.net.src

/-- The placeholders. -/
def QSetup.inputs (S : QSetup) : List Nat := [S.net.x, S.net.next, S.net.nmask, S.net.reward, S.net.omask]

/-- The shapes fit, the target network is a copy of the source network with its own parameters. -/
structure QSetup.Fits (S : QSetup) (shp : Backprop.Leaf → List Nat) : Prop where
  pos : 0 < S.n ∧ 0 < S.B
  states : shp ⟨false, S.net.x⟩ = [S.n, S.B]
  next : shp ⟨false, S.net.next⟩ = [S.n, S.B]
  nmask : shp ⟨false, S.net.nmask⟩ = [S.B]
  reward : shp ⟨false, S.net.reward⟩ = [S.B]
  omask : shp ⟨false, S.net.omask⟩ = [S.acts, S.B]
  other : S.inputs.Nodup
  source : NetShapes shp S.n S.net.src
  target : NetShapes shp S.n S.net.tgt
  copy : S.net.src.map (·.out) = S.net.tgt.map (·.out)
  nodup : (params S.net.src ++ params S.net.tgt).Nodup

/-- What is to be expected from the action of sample `e`: the reward, and unless the episode ended the discounted best
score the target network gives after it. -/
noncomputable def QSetup.goal (S : QSetup) (γ : ℝ) (val : Backprop.Leaf → Nat → Nat → ℝ) (e : Exp) : ℝ :=
  e.reward + if e.newObservation = [] then 0 else γ * maxOf (feed (netSpec val S.net.tgt) S.n (fun z => e.newObservation.getD z 0)) S.acts

/-- Mean squared difference between the score the source network gives to the action taken and what is to be expected. -/
noncomputable def QSetup.loss (S : QSetup) (γ : ℝ) (es : List Exp) (val : Backprop.Leaf → Nat → Nat → ℝ) : ℝ :=
  (es.map fun e => (feed (netSpec val S.net.src) S.n (fun z => e.observation.getD z 0) e.action - S.goal γ val e) ^ 2).sum / es.length

/-- Samples a caller may store. -/
def QSetup.Legal (S : QSetup) (e : Exp) : Prop :=
  e.observation.length = S.n ∧ e.action < S.acts ∧ (e.newObservation = [] ∨ e.newObservation.length = S.n)

/-- The tensors of the leaves are those of a new agent, or of one that has been trained: variables hold `val`, a
placeholder has been given something or is as variable_setup made it. -/
structure QSetup.Ready (S : QSetup) (env : Env ℝ) (shp : Backprop.Leaf → List Nat) (ρ : Backprop.Leaf → Tensor ℝ)
    (val : Backprop.Leaf → Nat → Nat → ℝ) : Prop where
  holds : ∀ l, (∀ x ∈ S.inputs, l ≠ ⟨false, x⟩) → Holds (ρ l) (shp l) (fun c => val l (c.getD 0 0) (c.getD 1 0))
  given : ∀ x ∈ S.inputs, (∃ f, Holds (ρ ⟨false, x⟩) (shp ⟨false, x⟩) f) ∨
    ρ ⟨false, x⟩ = Tensor.new env (if x = S.net.nmask ∨ x = S.net.reward then [0] else if x = S.net.omask then [S.acts, 0] else [S.n, 0])

/-- The derivative of the loss vanishes in the first entry of some parameter of the source network. -/
def QSetup.Stuck (S : QSetup) (γ : ℝ) (es : List Exp) (val : Backprop.Leaf → Nat → Nat → ℝ) : Prop :=
  ∃ v ∈ params S.net.src, HasDerivAt (fun s => S.loss γ es (setAt val v 0 0 s)) 0 (val ⟨true, v⟩ 0 0)

/-- One training step: every parameter of the source network moves against its gradient, scaled so that its first entry
is 5 or -5; every parameter of the target network then moves towards its counterpart; nothing else changes. -/
structure QSetup.Step (S : QSetup) (shp : Backprop.Leaf → List Nat) (lr γ α : ℝ) (es : List Exp)
    (val val' : Backprop.Leaf → Nat → Nat → ℝ) : Prop where
  moved : ∀ v ∈ params S.net.src, ∃ D : Nat → Nat → ℝ, D 0 0 ≠ 0 ∧ ∀ p q, IsEntry shp v p q →
    HasDerivAt (fun s => S.loss γ es (setAt val v p q s)) (D p q) (val ⟨true, v⟩ p q) ∧
    val' ⟨true, v⟩ p q = val ⟨true, v⟩ p q - lr * (5 / |D 0 0| * D p q)
  followed : ∀ ts ∈ (params S.net.tgt).zip (params S.net.src), ∀ p q, IsEntry shp ts.1 p q →
    val' ⟨true, ts.1⟩ p q = (1 - α) * val ⟨true, ts.1⟩ p q + α * val' ⟨true, ts.2⟩ p q
  kept : ∀ v, v ∉ params S.net.src → v ∉ params S.net.tgt → val' ⟨true, v⟩ = val ⟨true, v⟩

/-- Training on mini-batches one after the other; nothing is said about what follows a batch on which some parameter is
stuck. -/
inductive QSetup.Learns (S : QSetup) (shp : Backprop.Leaf → List Nat) (lr γ α : ℝ) : List (List Exp) → (Backprop.Leaf → Nat → Nat → ℝ) →
    (Backprop.Leaf → Nat → Nat → ℝ) → Prop where
  | nil {val : Backprop.Leaf → Nat → Nat → ℝ} : QSetup.Learns S shp lr γ α [] val val
  | cons {es : List Exp} {bs : List (List Exp)} {val val₁ val₂ : Backprop.Leaf → Nat → Nat → ℝ} :
      S.Step shp lr γ α es val val₁ → QSetup.Learns S shp lr γ α bs val₁ val₂ → QSetup.Learns S shp lr γ α (es :: bs) val val₂
  | stuck {es : List Exp} {bs : List (List Exp)} {val val₂ : Backprop.Leaf → Nat → Nat → ℝ} :
      S.Stuck γ es val → QSetup.Learns S shp lr γ α (es :: bs) val val₂

/-- The variables `source_updates_` is for: those the error `e` depends on, except for those below the node `o`. -/
def QTrains (vs : List Nat) (e o : Term) : Prop := vs.Nodup ∧ ∀ v, v ∈ vs ↔ ¬Free v e ∧ Free v o

end Verif.Spec
