import Verif.Spec.Regress
import Mathlib.Algebra.Order.BigOperators.Ring.Finset
import Mathlib.Algebra.BigOperators.Option
import Mathlib.Analysis.Calculus.Deriv.Pow
import Mathlib.Analysis.Calculus.Deriv.Add
import Mathlib.Analysis.Calculus.Deriv.Mul
import Mathlib.Tactic.Linarith
import Mathlib.Tactic.Ring
/-! # Gradient descent on a linear least-squares problem -/
namespace Verif.Regress
open Verif Verif.Spec Verif.Backprop Finset

/-- One step, for one output: the distance to any other model and the error weighed against each other. -/
theorem row_step {ι κ : Type} (J : Finset ι) (K : Finset κ) (A : ι → κ → ℝ) (c : ι → ℝ) (lr : ℝ) (h0 : 0 ≤ lr)
    (hF : 2 * lr * (∑ j ∈ J, ∑ k ∈ K, A j k ^ 2) ≤ 1) (th th' ph : κ → ℝ)
    (hs : ∀ k ∈ K, th' k = th k + 2 * lr * ∑ j ∈ J, A j k * (c j - ∑ k ∈ K, A j k * th k)) :
    2 * lr * (∑ j ∈ J, (c j - ∑ k ∈ K, A j k * th' k) ^ 2) + ∑ k ∈ K, (th' k - ph k) ^ 2 ≤
      2 * lr * (∑ j ∈ J, (c j - ∑ k ∈ K, A j k * ph k) ^ 2) + ∑ k ∈ K, (th k - ph k) ^ 2 := by
  set r : ι → ℝ := fun j => c j - ∑ k ∈ K, A j k * th k with hr
  set u : κ → ℝ := fun k => th' k - th k with hu
  set v : κ → ℝ := fun k => ph k - th k with hv
  have shift : ∀ (w : κ → ℝ) (j : ι), c j - ∑ k ∈ K, A j k * (th k + w k) = r j - ∑ k ∈ K, A j k * w k := by
    intro w j
    simp only [hr, mul_add, sum_add_distrib]; ring
  have e1 : ∀ j, c j - ∑ k ∈ K, A j k * th' k = r j - ∑ k ∈ K, A j k * u k := fun j => by
    rw [← shift u j]; congr 1; exact sum_congr rfl fun k _ => by simp only [hu]; ring
  have e2 : ∀ j, c j - ∑ k ∈ K, A j k * ph k = r j - ∑ k ∈ K, A j k * v k := fun j => by
    rw [← shift v j]; congr 1; exact sum_congr rfl fun k _ => by simp only [hv]; ring
  have inner : ∀ w : κ → ℝ, ∑ k ∈ K, u k * w k = 2 * lr * ∑ j ∈ J, r j * ∑ k ∈ K, A j k * w k := by
    intro w
    have : ∀ k ∈ K, u k * w k = 2 * lr * ∑ j ∈ J, r j * (A j k * w k) := fun k hk => by
      have : u k = 2 * lr * ∑ j ∈ J, A j k * r j := by simp only [hu, hs k hk, hr]; ring
      rw [this, mul_assoc, sum_mul]
      congr 1
      exact sum_congr rfl fun j _ => by ring
    rw [sum_congr rfl this, ← mul_sum, sum_comm]
    simp only [mul_sum]
  have q : ∀ w : κ → ℝ, ∑ j ∈ J, (r j - ∑ k ∈ K, A j k * w k) ^ 2 =
      (∑ j ∈ J, r j ^ 2) - 2 * (∑ j ∈ J, r j * ∑ k ∈ K, A j k * w k) + ∑ j ∈ J, (∑ k ∈ K, A j k * w k) ^ 2 := by
    intro w
    rw [mul_sum, ← sum_sub_distrib, ← sum_add_distrib]
    exact sum_congr rfl fun j _ => by ring
  have d1 : ∑ k ∈ K, (th' k - ph k) ^ 2 = (∑ k ∈ K, u k * u k) - 2 * (∑ k ∈ K, u k * v k) + ∑ k ∈ K, v k ^ 2 := by
    rw [mul_sum, ← sum_sub_distrib, ← sum_add_distrib]
    exact sum_congr rfl fun k _ => by simp only [hu, hv]; ring
  have d2 : ∑ k ∈ K, (th k - ph k) ^ 2 = ∑ k ∈ K, v k ^ 2 := sum_congr rfl fun k _ => by simp only [hv]; ring
  have cs : ∑ j ∈ J, (∑ k ∈ K, A j k * u k) ^ 2 ≤ (∑ j ∈ J, ∑ k ∈ K, A j k ^ 2) * ∑ k ∈ K, u k * u k := by
    rw [sum_mul]
    refine sum_le_sum fun j _ => ?_
    have := sum_mul_sq_le_sq_mul_sq K (A j) u
    simpa [sq] using this
  have hv2 : 0 ≤ ∑ j ∈ J, (∑ k ∈ K, A j k * v k) ^ 2 := sum_nonneg fun _ _ => sq_nonneg _
  have hu2 : 0 ≤ ∑ k ∈ K, u k * u k := sum_nonneg fun _ _ => mul_self_nonneg _
  have iu := inner u
  have iv := inner v
  rw [d1, d2]
  simp only [e1, e2, q]
  generalize ∑ j ∈ J, r j ^ 2 = R at *
  generalize ∑ j ∈ J, r j * ∑ k ∈ K, A j k * u k = Ru at *
  generalize ∑ j ∈ J, r j * ∑ k ∈ K, A j k * v k = Rv at *
  generalize ∑ j ∈ J, (∑ k ∈ K, A j k * u k) ^ 2 = Au at *
  generalize ∑ j ∈ J, (∑ k ∈ K, A j k * v k) ^ 2 = Av at *
  generalize ∑ k ∈ K, u k * u k = U at *
  generalize ∑ k ∈ K, u k * v k = UV at *
  generalize ∑ j ∈ J, ∑ k ∈ K, A j k ^ 2 = F at *
  have h1 : 2 * lr * Au ≤ U := by
    calc 2 * lr * Au ≤ 2 * lr * (F * U) := by
          apply mul_le_mul_of_nonneg_left cs; linarith
      _ = (2 * lr * F) * U := by ring
      _ ≤ 1 * U := mul_le_mul_of_nonneg_right hF hu2
      _ = U := one_mul U
  have h2 : 0 ≤ 2 * lr * Av := mul_nonneg (by linarith) hv2
  nlinarith [h1, h2, iu, iv]

/-- A step of gradient descent on a linear model. -/
structure LinStep (n o B : Nat) (x y : Nat → Nat → ℝ) (lr : ℝ) (W : Nat → Nat → ℝ) (b : Nat → ℝ) (W' : Nat → Nat → ℝ) (b' : Nat → ℝ) : Prop where
  weight : ∀ i < o, ∀ z < n, W' i z = W i z + 2 * lr * ∑ j ∈ range B, x z j * shortfall n x y W b i j
  bias : ∀ i < o, b' i = b i + 2 * lr * ∑ j ∈ range B, shortfall n x y W b i j

theorem LinStep.weigh {n o B : Nat} {x y : Nat → Nat → ℝ} {lr : ℝ} {W W' : Nat → Nat → ℝ} {b b' : Nat → ℝ} (h : LinStep n o B x y lr W b W' b')
    (h0 : 0 ≤ lr) (hF : 2 * lr * inputSize n B x ≤ 1) (V : Nat → Nat → ℝ) (c : Nat → ℝ) :
    2 * lr * linError n o B x y W' b' + modelDist n o W' b' V c ≤ 2 * lr * linError n o B x y V c + modelDist n o W b V c := by
  unfold linError modelDist
  rw [mul_sum, mul_sum, ← sum_add_distrib, ← sum_add_distrib]
  refine sum_le_sum fun i hi => ?_
  have hi := mem_range.mp hi
  have key := row_step (range B) (insertNone (range n)) (fun j k => k.elim 1 fun z => x z j) (y i) lr h0
    (by simpa only [sum_insertNone, Option.elim_none, Option.elim_some, one_pow, inputSize, add_comm] using hF)
    (fun k => k.elim (b i) (W i)) (fun k => k.elim (b' i) (W' i)) (fun k => k.elim (c i) (V i)) (by
      intro k hk
      have e : ∀ j, y i j - ∑ k ∈ insertNone (range n), (k.elim 1 fun z => x z j) * k.elim (b i) (W i) = shortfall n x y W b i j := fun j => by
        rw [sum_insertNone]; simp only [Option.elim_none, Option.elim_some, shortfall]; ring
      simp only [e]
      cases k with
      | none => simpa using h.bias i hi
      | some z =>
        have hz : z < n := by simpa using hk
        simpa using h.weight i hi z hz)
  have e : ∀ (W : Nat → Nat → ℝ) (b : Nat → ℝ) (j : Nat), y i j - ∑ k ∈ insertNone (range n), (k.elim 1 fun z => x z j) * k.elim (b i) (W i) = shortfall n x y W b i j := fun W b j => by
    rw [sum_insertNone]; simp only [Option.elim_none, Option.elim_some, shortfall]; ring
  have e2 := e W' b'
  have e3 := e V c
  simp only [e2, e3] at key
  rw [sum_insertNone, sum_insertNone] at key
  simp only [Option.elim_none, Option.elim_some] at key
  linarith

theorem linError_nonneg (n o B : Nat) (x y W : Nat → Nat → ℝ) (b : Nat → ℝ) : 0 ≤ linError n o B x y W b :=
  sum_nonneg fun _ _ => sum_nonneg fun _ _ => sq_nonneg _

theorem modelDist_nonneg (n o : Nat) (W W' : Nat → Nat → ℝ) (b b' : Nat → ℝ) : 0 ≤ modelDist n o W b W' b' :=
  sum_nonneg fun _ _ => add_nonneg (sum_nonneg fun _ _ => sq_nonneg _) (sq_nonneg _)

theorem modelDist_self (n o : Nat) (W : Nat → Nat → ℝ) (b : Nat → ℝ) : modelDist n o W b W b = 0 := by simp [modelDist]

/-- The partial derivative with respect to a weight. -/
theorem deriv_weight (n o B : Nat) (x y W : Nat → Nat → ℝ) (b : Nat → ℝ) {p q : Nat} (hp : p < o) (hq : q < n) :
    HasDerivAt (fun s => linError n o B x y (fun i z => if i = p ∧ z = q then s else W i z) b) (-2 * ∑ j ∈ range B, x q j * shortfall n x y W b p j) (W p q) := by
  have e : ∀ (s : ℝ) (i j : Nat), shortfall n x y (fun i z => if i = p ∧ z = q then s else W i z) b i j =
      shortfall n x y W b i j - (if i = p then x q j * (s - W p q) else 0) := by
    intro s i j
    by_cases hi : i = p
    · subst hi
      have : ∑ z ∈ range n, x z j * (if i = i ∧ z = q then s else W i z) = (∑ z ∈ range n, x z j * W i z) + x q j * (s - W i q) := by
        have h1 : ∀ z ∈ range n, x z j * (if i = i ∧ z = q then s else W i z) = x z j * W i z + if z = q then x q j * (s - W i q) else 0 := fun z _ => by
          by_cases hz : z = q
          · subst hz; simp; ring
          · simp [hz]
        rw [sum_congr rfl h1, sum_add_distrib, sum_ite_eq' (range n) q, if_pos (mem_range.mpr hq)]
      unfold shortfall; dsimp only; rw [this, if_pos rfl]; ring
    · simp only [shortfall, hi, false_and, if_false]; ring
  unfold linError
  simp only [e]
  have hd : ∀ i j, HasDerivAt (fun s : ℝ => (shortfall n x y W b i j - (if i = p then x q j * (s - W p q) else 0)) ^ 2)
      (if i = p then -2 * (x q j * shortfall n x y W b p j) else 0) (W p q) := by
    intro i j
    by_cases hi : i = p
    · subst hi
      simp only [if_true]
      have h1 : HasDerivAt (fun s : ℝ => shortfall n x y W b i j - x q j * (s - W i q)) (-x q j) (W i q) := by
        simpa using (((hasDerivAt_id (W i q)).sub_const (W i q)).const_mul (x q j)).const_sub (shortfall n x y W b i j)
      have h2 := h1.fun_pow 2
      simp only [sub_self, mul_zero, sub_zero] at h2
      exact h2.congr_deriv (by push_cast; ring)
    · simp only [hi, if_false]
      exact hasDerivAt_const _ _
  have := HasDerivAt.fun_sum (u := range o) fun i _ => HasDerivAt.fun_sum (u := range B) fun j _ => hd i j
  refine this.congr_deriv ?_
  rw [sum_eq_single_of_mem p (mem_range.mpr hp) fun i _ hi => by simp [hi]]
  simp only [if_true, ← mul_sum]

/-- The partial derivative with respect to a bias. -/
theorem deriv_bias (n o B : Nat) (x y W : Nat → Nat → ℝ) (b : Nat → ℝ) {p : Nat} (hp : p < o) :
    HasDerivAt (fun s => linError n o B x y W (fun i => if i = p then s else b i)) (-2 * ∑ j ∈ range B, shortfall n x y W b p j) (b p) := by
  have e : ∀ (s : ℝ) (i j : Nat), shortfall n x y W (fun i => if i = p then s else b i) i j = shortfall n x y W b i j - (if i = p then s - b p else 0) := by
    intro s i j
    by_cases hi : i = p
    · subst hi; simp only [shortfall, if_true]; ring
    · simp only [shortfall, hi, if_false]; ring
  unfold linError
  simp only [e]
  have hd : ∀ i j, HasDerivAt (fun s : ℝ => (shortfall n x y W b i j - (if i = p then s - b p else 0)) ^ 2)
      (if i = p then -2 * shortfall n x y W b p j else 0) (b p) := by
    intro i j
    by_cases hi : i = p
    · subst hi
      simp only [if_true]
      have h1 : HasDerivAt (fun s : ℝ => shortfall n x y W b i j - (s - b i)) (-1) (b i) := by
        simpa using ((hasDerivAt_id (b i)).sub_const (b i)).const_sub (shortfall n x y W b i j)
      have h2 := h1.fun_pow 2
      simp only [sub_self, sub_zero] at h2
      exact h2.congr_deriv (by push_cast; ring)
    · simp only [hi, if_false]
      exact hasDerivAt_const _ _
  have := HasDerivAt.fun_sum (u := range o) fun i _ => HasDerivAt.fun_sum (u := range B) fun j _ => hd i j
  refine this.congr_deriv ?_
  rw [sum_eq_single_of_mem p (mem_range.mpr hp) fun i _ hi => by simp [hi]]
  simp only [if_true, ← mul_sum]

end Verif.Regress
