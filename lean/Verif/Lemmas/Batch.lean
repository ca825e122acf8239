import Verif.Props.Layer
/-!
# Batches under the operators of a network
-/
namespace Verif.Props
open Spec Matmul Op Finset Elementary

theorem batch_mm {T : Type} [Ring T] (e : Env T) (hm : ∀ n, e.fits n = true) (on : Bool) (a b : Tensor T) (X Y Z : Nat)
    (f g : Nat → Nat → T) (ha : Batch a Z Y f) (hb : Batch b X Z g) :
    ∃ t', evalMatmul e on a b = .ok t' ∧ Holds t' [X, Y] (fun c => ∑ z ∈ range Z, f z (c.getD 1 0) * g (c.getD 0 0) z) := by
  rcases ha with ha | ⟨rfl, ha⟩ <;> rcases hb with hb | ⟨rfl, hb⟩
  · obtain ⟨t', h1, h2⟩ := c23_matmul e on a b X Y Z _ _ ha hb (hm _)
    exact ⟨t', h1, holds_congr h2 (fun c _ => by simp)⟩
  · obtain ⟨t', h1, h2⟩ := c23_vector_right e on a b X Y _ _ ha hb (hm _)
    exact ⟨t', h1, holds_congr h2 (fun c _ => by simp)⟩
  · obtain ⟨t', h1, h2⟩ := c23_vector_left e on a b X Z _ _ ha hb (hm _)
    refine ⟨t', h1, holds_congr h2 (fun c hc => ?_)⟩
    have h0 : c.getD 1 0 = 0 := by simpa using hc.2 1 (by simp)
    rw [h0]
    simp
  · obtain ⟨t', h1, h2⟩ := c23_vector_both e on a b X _ _ ha hb (hm _)
    refine ⟨t', h1, holds_congr h2 (fun c hc => ?_)⟩
    have h0 : c.getD 1 0 = 0 := by simpa using hc.2 1 (by simp)
    rw [h0]
    simp

theorem batch_transpose {T : Type} (e : Env T) (hm : ∀ n, e.fits n = true) (a : Tensor T) (n b : Nat)
    (f : Nat → Nat → T) (ha : Batch a n b f) :
    ∃ t', evalTranspose e (0, 1) a = .ok t' ∧ Batch t' b n (fun i j => f j i) := by
  rcases ha with ha | ⟨rfl, ha⟩
  · obtain ⟨t', h1, h2⟩ := c18_transpose e a [n, b] _ 0 1 ha (by simp) (by simp) (hm _)
    refine ⟨t', h1, .inl ?_⟩
    have : swapPos [n, b] 0 1 = [b, n] := rfl
    rw [this] at h2
    refine holds_congr h2 (fun c hc => ?_)
    obtain ⟨hl, _⟩ := hc
    match c, hl with
    | [i, j], _ => rfl
  · obtain ⟨t', h1, h2⟩ := c18_vector e a n _ ha (hm _)
    refine ⟨t', h1, .inl (holds_congr h2 (fun c hc => ?_))⟩
    have h0 : c.getD 0 0 = 0 := by simpa using hc.2 0 (by simp)
    rw [h0]
    rfl

theorem fold1_range (f : Nat → ℝ) (n : Nat) : fold1 (· + ·) ((List.range n).map f) = ∑ j ∈ range n, f j := by
  have h : ∀ l : List ℝ, fold1 (· + ·) l = l.sum := by
    intro l
    cases l with
    | nil => rfl
    | cons a l =>
      show l.foldl (· + ·) a = _
      rw [List.sum_cons]
      have : ∀ (l : List ℝ) (a : ℝ), l.foldl (· + ·) a = a + l.sum := by
        intro l
        induction l with
        | nil => intro a; simp
        | cons b l ih => intro a; rw [List.foldl_cons, ih, List.sum_cons]; ring
      exact this l a
  rw [h]
  induction n with
  | zero => simp
  | succ n ih => rw [List.range_succ, List.map_append, List.sum_append, ih, sum_range_succ]; simp

theorem batch_reduce (e : Env ℝ) (hm : ∀ n, e.fits n = true) (a : Tensor ℝ) (n b : Nat)
    (f : Nat → Nat → ℝ) (ha : Batch a n b f) :
    ∃ t', evalReduce e (· + ·) 1 a = .ok t' ∧ Batch t' n 1 (fun i _ => ∑ j ∈ range b, f i j) := by
  rcases ha with ha | ⟨rfl, ha⟩
  · obtain ⟨t', h1, h2⟩ := c19_axis e (· + ·) a [n, b] _ 1 ha (by simp) (hm _)
    have hr : reduceShape [n, b] 1 = [n] := by simp [reduceShape]
    rw [hr] at h2
    refine ⟨t', h1, .inr ⟨rfl, holds_congr h2 (fun c hc => ?_)⟩⟩
    obtain ⟨hl, _⟩ := hc
    match c, hl with
    | [i], _ =>
      have := fold1_range (fun j => f i j) b
      simpa [fibre, fibreCoord] using this
  · obtain ⟨t', h1, h2⟩ := c19_beyond e (· + ·) a [n] _ 1 ha (by simp) (hm _)
    exact ⟨t', h1, .inr ⟨rfl, holds_congr h2 (fun c _ => by simp)⟩⟩

theorem batch_axial {T : Type} [Ring T] (e : Env T) (hm : ∀ n, e.fits n = true) (a b : Tensor T) (m n : Nat)
    (f : Nat → Nat → T) (g : Nat → T) (ha : Holds a [m, n] (fun c => f (c.getD 0 0) (c.getD 1 0)))
    (hb : Holds b [m] (fun c => g (c.getD 0 0))) :
    ∃ t', Op.forwardPass e (Elementary.axialShaper 1 false) (Elementary.binaryAxial (· + ·) 1 false) none [some a, some b] = .ok t' ∧
      Holds t' [m, n] (fun c => f (c.getD 0 0) (c.getD 1 0) + g (c.getD 0 0)) := by
  have hred : reduceShape [m, n] 1 = [m] := by simp [reduceShape]
  obtain ⟨t', h3, h4⟩ := c54_axial_partial e (· + ·) b a [m, n] 1 _ _ false (by simp) (by rw [hred]; exact hb) ha
    (by simp) (hm _)
  refine ⟨t', h3, holds_congr h4 (fun c hc => ?_)⟩
  obtain ⟨hl, _⟩ := hc
  match c, hl with
  | [i, j], _ => simp [reduceCoord]

end Verif.Props
