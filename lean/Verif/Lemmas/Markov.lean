import Mathlib.Algebra.BigOperators.Ring.Finset
import Mathlib.Algebra.Order.BigOperators.Ring.Finset
import Mathlib.Analysis.SpecificLimits.Basic
import Mathlib.Data.Fintype.BigOperators
/-!
# Alternating sampling on finite sets: invariance and convergence
-/
namespace Verif.Markov
open Finset

variable {A H S : Type} [Fintype A] [Fintype H] [Fintype S]

/-- The law after one round from law `μ`. -/
def roundLaw (qv : H → A → ℝ) (qh : A → H → ℝ) (hid : S → H) (μ : S → ℝ) : A × H → ℝ :=
  fun x => ∑ s, μ s * (qv (hid s) x.1 * qh x.1 x.2)

/-- `k` more rounds. -/
def after (qv : H → A → ℝ) (qh : A → H → ℝ) : Nat → (A × H → ℝ) → A × H → ℝ
  | 0, μ => μ
  | k + 1, μ => after qv qh k (roundLaw qv qh Prod.snd μ)

structure Conditionals (π : A → H → ℝ) (qv : H → A → ℝ) (qh : A → H → ℝ) : Prop where
  left : ∀ v h, (∑ v', π v' h) * qv h v = π v h
  right : ∀ v h, (∑ h', π v h') * qh v h = π v h
  posv : ∀ h v, 0 < qv h v
  posh : ∀ v h, 0 < qh v h
  onev : ∀ h, ∑ v, qv h v = 1
  oneh : ∀ v, ∑ h, qh v h = 1
  pos : ∀ v h, 0 ≤ π v h
  total : ∑ v, ∑ h, π v h = 1

variable {π : A → H → ℝ} {qv : H → A → ℝ} {qh : A → H → ℝ}

/-- From the hidden part of the joint law, a round gives the joint law. -/
theorem round_stationary (C : Conditionals π qv qh) (hid : S → H) (μ : S → ℝ) [DecidableEq H]
    (hμ : ∀ h, (∑ s, if hid s = h then μ s else 0) = ∑ v, π v h) (v : A) (h : H) : roundLaw qv qh hid μ (v, h) = π v h := by
  unfold roundLaw
  have : ∑ s, μ s * (qv (hid s) v * qh v h) = ∑ h', (∑ v', π v' h') * (qv h' v * qh v h) := by
    simp only [← hμ, sum_mul]
    rw [sum_comm]
    refine sum_congr rfl (fun s _ => ?_)
    simp [ite_mul]
  dsimp only
  rw [this]
  simp only [← mul_assoc, C.left]
  rw [← sum_mul, C.right]

theorem after_stationary (C : Conditionals π qv qh) (k : Nat) (μ : A × H → ℝ) (hμ : ∀ v h, μ (v, h) = π v h) (v : A) (h : H) :
    after qv qh k μ (v, h) = π v h := by
  classical
  induction k generalizing μ with
  | zero => exact hμ v h
  | succ k ih =>
    refine ih _ (fun v h => round_stationary C Prod.snd μ ?_ v h)
    intro h'
    rw [Fintype.sum_prod_type]
    refine sum_congr rfl (fun a _ => ?_)
    simp [hμ]

theorem round_total (C : Conditionals π qv qh) (hid : S → H) (μ : S → ℝ) : ∑ x, roundLaw qv qh hid μ x = ∑ s, μ s := by
  unfold roundLaw
  rw [sum_comm]
  refine sum_congr rfl (fun s _ => ?_)
  rw [← mul_sum, Fintype.sum_prod_type]
  simp only [← mul_sum, C.oneh, mul_one, C.onev]

theorem round_nonneg (C : Conditionals π qv qh) (hid : S → H) (μ : S → ℝ) (hμ : ∀ s, 0 ≤ μ s) (x : A × H) : 0 ≤ roundLaw qv qh hid μ x :=
  sum_nonneg (fun s _ => mul_nonneg (hμ s) (mul_nonneg (C.posv _ _).le (C.posh _ _).le))

/-- One round brings the law nearer to the joint law. -/
theorem round_contract (C : Conditionals π qv qh) {δ : ℝ} (hδ : ∀ h v h', δ * π v h' ≤ qv h v * qh v h') (μ : A × H → ℝ) (hμ : ∑ x, μ x = 1) :
    ∑ x, |roundLaw qv qh Prod.snd μ x - π x.1 x.2| ≤ (1 - δ) * ∑ x, |μ x - π x.1 x.2| := by
  classical
  have hπ : ∑ x : A × H, π x.1 x.2 = 1 := by rw [Fintype.sum_prod_type]; exact C.total
  have hst : ∀ x : A × H, π x.1 x.2 = ∑ s : A × H, π s.1 s.2 * (qv s.2 x.1 * qh x.1 x.2) := by
    intro x
    have := round_stationary C (S := A × H) Prod.snd (fun s => π s.1 s.2) (fun h => by
      rw [Fintype.sum_prod_type]; exact sum_congr rfl (fun a _ => by simp)) x.1 x.2
    exact this.symm
  have key : ∀ x : A × H, roundLaw qv qh Prod.snd μ x - π x.1 x.2 =
      ∑ s : A × H, (μ s - π s.1 s.2) * (qv s.2 x.1 * qh x.1 x.2 - δ * π x.1 x.2) := by
    intro x
    have e1 : ∑ s : A × H, (μ s - π s.1 s.2) * (δ * π x.1 x.2) = 0 := by
      rw [← sum_mul, sum_sub_distrib, hμ, hπ]; simp
    simp only [mul_sub]
    rw [sum_sub_distrib, e1, sub_zero]
    simp only [sub_mul]
    rw [sum_sub_distrib, ← hst x]
    rfl
  calc ∑ x, |roundLaw qv qh Prod.snd μ x - π x.1 x.2|
      ≤ ∑ x : A × H, ∑ s : A × H, |μ s - π s.1 s.2| * (qv s.2 x.1 * qh x.1 x.2 - δ * π x.1 x.2) := by
        refine sum_le_sum (fun x _ => ?_)
        rw [key x]
        refine (abs_sum_le_sum_abs _ _).trans (sum_le_sum (fun s _ => ?_))
        rw [abs_mul, abs_of_nonneg (sub_nonneg.2 (hδ s.2 x.1 x.2))]
    _ = (1 - δ) * ∑ x, |μ x - π x.1 x.2| := by
        rw [sum_comm, mul_sum]
        refine sum_congr rfl (fun s _ => ?_)
        rw [← mul_sum, sum_sub_distrib, ← mul_sum, hπ, Fintype.sum_prod_type]
        simp only [← mul_sum, C.oneh, mul_one, C.onev]
        ring

/-- There is such a `δ`, positive. -/
theorem minor (C : Conditionals π qv qh) [Nonempty A] [Nonempty H] : ∃ δ, 0 < δ ∧ δ ≤ 1 ∧ ∀ h v h', δ * π v h' ≤ qv h v * qh v h' := by
  obtain ⟨x, _, hx⟩ := exists_min_image (univ : Finset (H × A × H)) (fun x => qv x.1 x.2.1 * qh x.2.1 x.2.2) univ_nonempty
  have pos : 0 < qv x.1 x.2.1 * qh x.2.1 x.2.2 := mul_pos (C.posv _ _) (C.posh _ _)
  have le1 : ∀ v h, π v h ≤ 1 := by
    intro v h
    rw [← C.total]
    exact (single_le_sum (f := fun h => π v h) (fun h _ => C.pos v h) (mem_univ h)).trans
      (single_le_sum (f := fun v => ∑ h, π v h) (fun v _ => sum_nonneg (fun h _ => C.pos v h)) (mem_univ v))
  have qv1 : qv x.1 x.2.1 ≤ 1 := by
    rw [← C.onev x.1]; exact single_le_sum (f := fun v => qv x.1 v) (fun v _ => (C.posv _ v).le) (mem_univ _)
  have qh1 : qh x.2.1 x.2.2 ≤ 1 := by
    rw [← C.oneh x.2.1]; exact single_le_sum (f := fun h => qh x.2.1 h) (fun h _ => (C.posh _ h).le) (mem_univ _)
  refine ⟨_, pos, mul_le_one₀ qv1 (C.posh _ _).le qh1, fun h v h' => ?_⟩
  have := hx (h, v, h') (mem_univ _)
  exact (mul_le_of_le_one_right pos.le (le1 v h')).trans this

theorem after_near (C : Conditionals π qv qh) {δ : ℝ} (h1 : δ ≤ 1) (hδ : ∀ h v h', δ * π v h' ≤ qv h v * qh v h') (k : Nat) (μ : A × H → ℝ)
    (hμ : ∑ x, μ x = 1) : ∑ x, |after qv qh k μ x - π x.1 x.2| ≤ (1 - δ) ^ k * ∑ x, |μ x - π x.1 x.2| := by
  induction k generalizing μ with
  | zero => simp [after]
  | succ k ih =>
    refine (ih _ (by rw [round_total C]; exact hμ)).trans ?_
    rw [pow_succ, mul_assoc]
    exact mul_le_mul_of_nonneg_left (round_contract C hδ μ hμ) (pow_nonneg (by linarith) k)

theorem after_close (C : Conditionals π qv qh) {δ : ℝ} (h1 : δ ≤ 1) (hδ : ∀ h v h', δ * π v h' ≤ qv h v * qh v h') (k : Nat) (μ : A × H → ℝ)
    (h0 : ∀ x, 0 ≤ μ x) (hμ : ∑ x, μ x = 1) (x : A × H) : |after qv qh k μ x - π x.1 x.2| ≤ 2 * (1 - δ) ^ k := by
  refine (single_le_sum (f := fun x => |after qv qh k μ x - π x.1 x.2|) (fun x _ => abs_nonneg _) (mem_univ x)).trans ?_
  refine (after_near C h1 hδ k μ hμ).trans ?_
  rw [mul_comm]
  refine mul_le_mul_of_nonneg_right ?_ (pow_nonneg (by linarith) k)
  have : ∑ x : A × H, |μ x - π x.1 x.2| ≤ ∑ x : A × H, (μ x + π x.1 x.2) := by
    refine sum_le_sum (fun x _ => ?_)
    have := h0 x
    have := C.pos x.1 x.2
    rw [abs_le]; constructor <;> linarith
  refine this.trans ?_
  rw [sum_add_distrib, hμ, Fintype.sum_prod_type, C.total]
  norm_num

end Verif.Markov
