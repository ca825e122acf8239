import Verif.Spec.Tensor
import Mathlib.Algebra.BigOperators.Group.Finset.Basic
import Mathlib.Algebra.Ring.Defs
/-!
# Specification of feed-forward networks
-/
namespace Verif.Spec

/-- A tensor holds a batch of `b` vectors of length `n`; component `i` of vector `j` is `f i j`.  A batch of one
may be given as a tensor of rank 1. -/
def Batch {T : Type} (t : Tensor T) (n b : Nat) (f : Nat → Nat → T) : Prop :=
  Holds t [n, b] (fun c => f (c.getD 0 0) (c.getD 1 0)) ∨ (b = 1 ∧ Holds t [n] (fun c => f (c.getD 0 0) 0))

/-- One of several inputs of a fully connected layer with `m` units: the batch, and its weights and biases. -/
structure FcInput (T : Type) where
  n : Nat
  x : Nat → Nat → T
  w : Nat → Nat → T
  bias : Nat → T

/-- Contribution of one input to unit `i` for vector `j` of the batch. -/
def FcInput.term {T : Type} [Ring T] (k : FcInput T) (i j : Nat) : T :=
  (∑ z ∈ Finset.range k.n, k.x z j * k.w i z) + k.bias i

/-- One layer on paper: `out` units, weights `w i z` from input `z` to unit `i`, biases, activation. -/
structure LayerSpec (T : Type) where
  out : Nat
  w : Nat → Nat → T
  bias : Nat → T
  act : T → T

/-- What a feed-forward network computes on one input vector of length `n`. -/
def feed {T : Type} [Ring T] : List (LayerSpec T) → Nat → (Nat → T) → (Nat → T)
  | [], _, x => x
  | l :: ls, n, x => feed ls l.out (fun i => l.act ((∑ z ∈ Finset.range n, x z * l.w i z) + l.bias i))

/-- Number of outputs. -/
def width {T : Type} : List (LayerSpec T) → Nat → Nat
  | [], n => n
  | l :: ls, _ => width ls l.out

/-- A node function that applies `σ` to every element. -/
def Pointwise {T : Type} (act : Tensor T → Outcome (Tensor T)) (σ : T → T) : Prop :=
  ∀ t n b f, Batch t n b f → ∃ t', act t = .ok t' ∧ Batch t' n b (fun i j => σ (f i j))

/-- The layer's tensors hold the weights and biases for `n` inputs, and its activation is `σ` everywhere. -/
structure LayerHolds {T : Type} (n : Nat) (L : (Tensor T × Tensor T) × (Tensor T → Outcome (Tensor T))) (l : LayerSpec T) : Prop where
  weight : Holds L.1.1 [l.out, n] (fun c => l.w (c.getD 0 0) (c.getD 1 0))
  bias : Holds L.1.2 [l.out] (fun c => l.bias (c.getD 0 0))
  act : Pointwise L.2 l.act

/-- Consecutive layers fit. -/
inductive NetHolds {T : Type} : Nat → List ((Tensor T × Tensor T) × (Tensor T → Outcome (Tensor T))) → List (LayerSpec T) → Prop where
  | nil {n : Nat} : NetHolds n [] []
  | cons {n : Nat} {L : (Tensor T × Tensor T) × (Tensor T → Outcome (Tensor T))} {l : LayerSpec T}
      {Ls : List ((Tensor T × Tensor T) × (Tensor T → Outcome (Tensor T)))} {ls : List (LayerSpec T)} :
      LayerHolds n L l → NetHolds l.out Ls ls → NetHolds n (L :: Ls) (l :: ls)

end Verif.Spec
