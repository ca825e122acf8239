import Verif.Lemmas.Expected
/-!
# A chain of one visible and one hidden unit
-/
namespace Verif.Props
open Spec Backprop Finset Markov
open scoped Classical

theorem sum_unit (f : BitBatch 1 1 → ℝ) : ∑ b, f b = f (fun _ _ => false) + f (fun _ _ => true) := by
  rw [Fintype.sum_equiv ((Equiv.funUnique (Fin 1) (Fin 1 → Bool)).trans (Equiv.funUnique (Fin 1) Bool)) f
    (fun b => f (fun _ _ => b)) (fun b => ?_), Fintype.sum_bool, add_comm]
  congr 1
  funext i j
  have := Subsingleton.elim i 0
  have := Subsingleton.elim j 0
  subst i j
  rfl

/-- How probable it is that the visible unit is on. -/
noncomputable def unitOn (μ : BitBatch 1 1 × BitBatch 1 1 → ℝ) : ℝ := ∑ b, μ b * if b.1 0 0 then 1 else 0

/-- How probable it is that the hidden unit is on. -/
noncomputable def hidOn (μ : BitBatch 1 1 × BitBatch 1 1 → ℝ) : ℝ := ∑ b, μ b * if b.2 0 0 then 1 else 0

variable {d : ℝ} {qv qh : BitBatch 1 1 → BitBatch 1 1 → ℝ}

theorem round_unit {S : Type} [Fintype S] (hv : ∀ h v, qv h v = bern (1 / 2 + d * if h 0 0 then 1 else 0) (v 0 0))
    (hh : ∀ v h, qh v h = bern (1 / 2 + d * if v 0 0 then 1 else 0) (h 0 0)) (hid : S → BitBatch 1 1) (μ : S → ℝ) (hμ : ∑ s, μ s = 1) :
    unitOn (roundLaw qv qh hid μ) = 1 / 2 + d * ∑ s, μ s * (if hid s 0 0 then 1 else 0) ∧
    hidOn (roundLaw qv qh hid μ) = 1 / 2 + d * unitOn (roundLaw qv qh hid μ) := by
  have key : ∀ F : BitBatch 1 1 × BitBatch 1 1 → ℝ, ∑ b, roundLaw qv qh hid μ b * F b = ∑ s, μ s * ∑ v, ∑ h, qv (hid s) v * qh v h * F (v, h) := by
    intro F
    unfold roundLaw
    simp only [sum_mul]
    rw [sum_comm]
    refine sum_congr rfl (fun s _ => ?_)
    rw [Fintype.sum_prod_type, mul_sum]
    refine sum_congr rfl (fun v _ => ?_)
    rw [mul_sum]
    exact sum_congr rfl (fun h _ => by ring)
  have e1 : unitOn (roundLaw qv qh hid μ) = 1 / 2 + d * ∑ s, μ s * (if hid s 0 0 then 1 else 0) := by
    unfold unitOn
    rw [key (fun b => if b.1 0 0 then 1 else 0)]
    have : ∀ s, μ s * ∑ v, ∑ h, qv (hid s) v * qh v h * (if v 0 0 then 1 else 0) = 1 / 2 * μ s + d * (μ s * (if hid s 0 0 then 1 else 0)) := by
      intro s
      simp only [sum_unit, hv, hh, bern]
      cases hid s 0 0 <;> simp <;> ring
    rw [sum_congr rfl (fun s _ => this s), sum_add_distrib, ← mul_sum, ← mul_sum, hμ, mul_one]
  refine ⟨e1, ?_⟩
  rw [e1]
  unfold hidOn
  rw [key (fun b => if b.2 0 0 then 1 else 0)]
  have : ∀ s, μ s * ∑ v, ∑ h, qv (hid s) v * qh v h * (if h 0 0 then 1 else 0) =
      (1 / 2 + d * (1 / 2)) * μ s + d * d * (μ s * (if hid s 0 0 then 1 else 0)) := by
    intro s
    simp only [sum_unit, hv, hh, bern]
    cases hid s 0 0 <;> simp <;> ring
  rw [sum_congr rfl (fun s _ => this s), sum_add_distrib, ← mul_sum, ← mul_sum, hμ]
  ring

theorem round_one {S : Type} [Fintype S] (hv : ∀ h v, qv h v = bern (1 / 2 + d * if h 0 0 then 1 else 0) (v 0 0))
    (hh : ∀ v h, qh v h = bern (1 / 2 + d * if v 0 0 then 1 else 0) (h 0 0)) (hid : S → BitBatch 1 1) (μ : S → ℝ) :
    ∑ b, roundLaw qv qh hid μ b = ∑ s, μ s := by
  unfold roundLaw
  rw [sum_comm]
  refine sum_congr rfl (fun s _ => ?_)
  rw [Fintype.sum_prod_type]
  simp only [sum_unit, hv, hh, bern]
  simp
  ring

/-- Each round brings the probability nearer to its fixed point by the factor `d²`. -/
theorem after_unit (hd : d * d ≠ 1) (hv : ∀ h v, qv h v = bern (1 / 2 + d * if h 0 0 then 1 else 0) (v 0 0))
    (hh : ∀ v h, qh v h = bern (1 / 2 + d * if v 0 0 then 1 else 0) (h 0 0)) (k : Nat) :
    ∀ μ : BitBatch 1 1 × BitBatch 1 1 → ℝ, ∑ b, μ b = 1 → hidOn μ = 1 / 2 + d * unitOn μ →
      unitOn (after qv qh k μ) - (1 / 2 + d / 2) / (1 - d * d) = (d * d) ^ k * (unitOn μ - (1 / 2 + d / 2) / (1 - d * d)) := by
  have hd' : 1 - d * d ≠ 0 := fun h => hd (by linarith)
  induction k with
  | zero => intro μ _ _; simp [after]
  | succ k ih =>
    intro μ hμ h
    obtain ⟨e1, e2⟩ := round_unit hv hh Prod.snd μ hμ
    rw [after, ih _ ((round_one hv hh Prod.snd μ).trans hμ) e2, e1]
    rw [show ∑ s, μ s * (if s.2 0 0 then 1 else 0) = 1 / 2 + d * unitOn μ from h, pow_succ, mul_assoc]
    congr 1
    have hp : (1 / 2 + d / 2) / (1 - d * d) * (1 - d * d) = 1 / 2 + d / 2 := div_mul_cancel₀ _ hd'
    linear_combination -hp

theorem after_one (hv : ∀ h v, qv h v = bern (1 / 2 + d * if h 0 0 then 1 else 0) (v 0 0))
    (hh : ∀ v h, qh v h = bern (1 / 2 + d * if v 0 0 then 1 else 0) (h 0 0)) (k : Nat) :
    ∀ μ : BitBatch 1 1 × BitBatch 1 1 → ℝ, ∑ b, after qv qh k μ b = ∑ b, μ b := by
  induction k with
  | zero => intro μ; rfl
  | succ k ih => intro μ; rw [after, ih]; exact round_one hv hh Prod.snd μ

end Verif.Props
