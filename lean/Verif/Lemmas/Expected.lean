import Verif.Spec.Expected
import Verif.Lemmas.StationaryRun
import Mathlib.MeasureTheory.Integral.Bochner.Set
/-!
# Gradients of the likelihood as expectations
-/
namespace Verif.Props
open Spec Backprop Finset MeasureTheory Markov
open scoped Classical

variable {val : Backprop.Leaf → Nat → Nat → ℝ}

/-- Derivative of the free energy of the vector `y` in entry `[p, q]` of variable `v`. -/
noncomputable def freeScore (val : Backprop.Leaf → Nat → Nat → ℝ) (r : RbmVars) (n m v p q : Nat) (y : Nat → ℝ) : ℝ :=
  -(∑ i ∈ range m, logistic (∑ z ∈ range n, y z * val ⟨true, r.w⟩ i z + val ⟨true, r.hb⟩ i 0) *
      (∑ z ∈ range n, y z * (if (⟨true, r.w⟩ : Backprop.Leaf) = ⟨true, v⟩ ∧ i = p ∧ z = q then 1 else 0) +
        (if (⟨true, r.hb⟩ : Backprop.Leaf) = ⟨true, v⟩ ∧ i = p ∧ 0 = q then 1 else 0))) -
    ∑ z ∈ range n, (if (⟨true, r.vb⟩ : Backprop.Leaf) = ⟨true, v⟩ ∧ z = p ∧ 0 = q then 1 else 0) * y z

theorem freeScore_deriv (r : RbmVars) (n m v p q : Nat) (y : Nat → ℝ) :
    HasDerivAt (fun t => (machine r n m (setAt val v p q t)).freeEnergy y) (freeScore val r n m v p q y) (val ⟨true, v⟩ p q) :=
  Rb.free_entry r n m p q y

theorem freeScore_congr (r : RbmVars) (n m v p q : Nat) {val' : Backprop.Leaf → Nat → Nat → ℝ} (h1 : val' ⟨true, r.w⟩ = val ⟨true, r.w⟩)
    (h2 : val' ⟨true, r.hb⟩ = val ⟨true, r.hb⟩) {y y' : Nat → ℝ} (hy : ∀ z, z < n → y' z = y z) :
    freeScore val' r n m v p q y' = freeScore val r n m v p q y := by
  unfold freeScore
  rw [h1, h2]
  have e : ∀ f : Nat → ℝ, ∑ z ∈ range n, y' z * f z = ∑ z ∈ range n, y z * f z := fun f => sum_congr rfl (fun z hz => by rw [hy z (mem_range.1 hz)])
  have e' : ∀ f : Nat → ℝ, ∑ z ∈ range n, f z * y' z = ∑ z ∈ range n, f z * y z := fun f => sum_congr rfl (fun z hz => by rw [hy z (mem_range.1 hz)])
  simp only [e, e']

/-- The step of contrastive divergence, for every entry alike. -/
theorem cdStep_entry {r : RbmVars} {n m B x c : Nat} {lr : ℝ} {shp : Backprop.Leaf → List Nat} {val' : Backprop.Leaf → Nat → Nat → ℝ}
    (h : RbmFits r n m B x c shp) (hs : CdStep r n m B x c lr val val') {v p q : Nat} (hv : v = r.w ∨ v = r.hb ∨ v = r.vb) (he : IsEntry shp v p q) :
    val' ⟨true, v⟩ p q = val ⟨true, v⟩ p q - lr * ((∑ j ∈ range B, freeScore val r n m v p q (fun z => val ⟨false, x⟩ z j)) / B -
      (∑ j ∈ range B, freeScore val r n m v p q (fun z => val ⟨false, c⟩ z j)) / B) := by
  have key : ∀ l : Nat, HasDerivAt (fun t => (machine r n m (setAt val v p q t)).meanFree B (fun z j => val ⟨false, l⟩ z j))
      ((∑ j ∈ range B, freeScore val r n m v p q (fun z => val ⟨false, l⟩ z j)) / B) (val ⟨true, v⟩ p q) :=
    fun l => Rb.mean_deriv (fun j _ => freeScore_deriv r n m v p q (fun z => val ⟨false, l⟩ z j))
  obtain ⟨v1, v2, v3⟩ := h.vars
  obtain ⟨hp, hq⟩ := he
  have hon : ∀ (l j p : Nat), p < m → (machine r n m val).hiddenOn (fun z => val ⟨false, l⟩ z j) p = logistic (Rb.zz r val n (val ⟨false, l⟩) p j) := by
    intro l j p hp
    rw [hiddenOn_eq _ _ _ hp]; rfl
  rcases hv with rfl | rfl | rfl
  · rw [h.weight] at hp hq
    rw [(key x).unique (Rb.mean_W v1 v2 n m B p q hp hq x), (key c).unique (Rb.mean_W v1 v2 n m B p q hp hq c), hs.weight p hp q hq]
    simp only [hon _ _ p hp]
    ring
  · rw [h.hbias] at hp hq
    obtain rfl : q = 0 := by simpa [leafSize] using hq
    rw [(key x).unique (Rb.mean_H v1 v3 n m B p hp x), (key c).unique (Rb.mean_H v1 v3 n m B p hp c), hs.hidden p hp]
    simp only [hon _ _ p hp]
    ring
  · rw [h.vbias] at hp hq
    obtain rfl : q = 0 := by simpa [leafSize] using hq
    rw [(key x).unique (Rb.mean_V v2 v3 n m B p hp x), (key c).unique (Rb.mean_V v2 v3 n m B p hp c), hs.visible p hp]
    ring

theorem visibleProb_eq (M : Boltzmann) (v : Nat → ℝ) :
    M.visibleProb v = Real.exp (-M.freeEnergy v) / ∑ w ∈ bits M.n, Real.exp (-M.freeEnergy (ofBits w)) := by
  unfold Boltzmann.visibleProb
  simp only [c66_free_energy]

theorem logProb_eq (M : Boltzmann) (v : Nat → ℝ) :
    Real.log (M.visibleProb v) = -M.freeEnergy v - Real.log (∑ w ∈ bits M.n, Real.exp (-M.freeEnergy (ofBits w))) := by
  have hZ : 0 < ∑ w ∈ bits M.n, Real.exp (-M.freeEnergy (ofBits w)) := sum_pos (fun _ _ => Real.exp_pos _) (by simp [bits])
  rw [visibleProb_eq, Real.log_div (Real.exp_pos _).ne' hZ.ne', Real.log_exp]

theorem pair_marginal (M : Boltzmann) (w : Fin M.n → Bool) :
    ∑ h : Fin M.m → Bool, M.pairLaw w h = Real.exp (-M.freeEnergy (ofBits w)) / ∑ w ∈ bits M.n, Real.exp (-M.freeEnergy (ofBits w)) := by
  unfold Boltzmann.pairLaw
  rw [← sum_div]
  simp only [c66_free_energy]
  rfl

/-- The gradient of the mean log-likelihood: the mean over the machine's distribution minus the mean over the data. -/
theorem meanLogProb_deriv (r : RbmVars) (n m B v p q : Nat) (hB : 0 < B) (x : Nat → Nat → ℝ) :
    HasDerivAt (fun t => (machine r n m (setAt val v p q t)).meanLogProb B x)
      (-((∑ j ∈ range B, freeScore val r n m v p q (fun z => x z j)) / B) +
        ∑ w : Fin n → Bool, (∑ h : Fin m → Bool, (machine r n m val).pairLaw w h) * freeScore val r n m v p q (ofBits w)) (val ⟨true, v⟩ p q) := by
  let Z : ℝ → ℝ := fun t => ∑ w ∈ bits n, Real.exp (-(machine r n m (setAt val v p q t)).freeEnergy (ofBits w))
  have hpos : ∀ t, 0 < Z t := fun t => sum_pos (fun _ _ => Real.exp_pos _) (by simp [bits])
  have hZ : HasDerivAt Z (∑ w ∈ bits n, Real.exp (-(machine r n m val).freeEnergy (ofBits w)) * -freeScore val r n m v p q (ofBits w)) (val ⟨true, v⟩ p q) := by
    refine HasDerivAt.fun_sum (fun w _ => ?_)
    have := ((freeScore_deriv (val := val) r n m v p q (ofBits w)).fun_neg).exp
    rw [Rb.setAt_self] at this
    exact this
  have hlog := hZ.log (hpos _).ne'
  have hB' : (B : ℝ) ≠ 0 := by positivity
  have e : (fun t => (machine r n m (setAt val v p q t)).meanLogProb B x) =
      fun t => -(machine r n m (setAt val v p q t)).meanFree B x - Real.log (Z t) := by
    funext t
    unfold Boltzmann.meanLogProb Boltzmann.meanFree
    simp only [logProb_eq]
    rw [sum_sub_distrib, sum_neg_distrib, sum_const, card_range, nsmul_eq_mul, sub_div, neg_div, mul_div_cancel_left₀ _ hB']
    rfl
  rw [e]
  have h1 : HasDerivAt (fun t => (machine r n m (setAt val v p q t)).meanFree B x)
      ((∑ j ∈ range B, freeScore val r n m v p q (fun z => x z j)) / B) (val ⟨true, v⟩ p q) :=
    Rb.mean_deriv (fun j _ => freeScore_deriv r n m v p q (fun z => x z j))
  refine (h1.fun_neg.fun_sub hlog).congr_deriv ?_
  rw [sub_eq_add_neg]
  congr 1
  simp only [Z, Rb.setAt_self]
  rw [← neg_div, ← sum_neg_distrib, sum_div]
  refine sum_congr rfl (fun w _ => ?_)
  have hpm : (∑ h : Fin m → Bool, (machine r n m val).pairLaw w h) =
      Real.exp (-(machine r n m val).freeEnergy (ofBits w)) / ∑ w ∈ bits n, Real.exp (-(machine r n m val).freeEnergy (ofBits w)) := pair_marginal (machine r n m val) w
  rw [hpm]
  ring

/-- The mean over a batch with the machine's distribution. -/
theorem batch_mean (M : Boltzmann) (B : Nat) (hB : 0 < B) (g : (Fin M.n → Bool) → ℝ) :
    ∑ y : BitBatch M.n B × BitBatch M.m B, M.law y.1 y.2 * ((∑ j, g (y.1 j)) / B) = ∑ w, (∑ h : Fin M.m → Bool, M.pairLaw w h) * g w := by
  let Q : (Fin M.n → Bool) → ℝ := fun w => ∑ h : Fin M.m → Bool, M.pairLaw w h
  have hQ : ∑ w, Q w = 1 := by
    have := (conditionals M 1).total
    have h1 : ∀ v : BitBatch M.n 1, ∑ h : BitBatch M.m 1, M.law v h = Q (v 0) := by
      intro v
      unfold Boltzmann.law
      rw [← Fintype.prod_sum (fun j (x : Fin M.m → Bool) => M.pairLaw (v j) x)]
      simp [Q]
    simp only [h1] at this
    rw [← this]
    exact Fintype.sum_equiv (Equiv.funUnique (Fin 1) (Fin M.n → Bool)).symm _ _ (fun w => rfl)
  have hm : ∀ v : BitBatch M.n B, ∑ h : BitBatch M.m B, M.law v h = ∏ j, Q (v j) := by
    intro v
    unfold Boltzmann.law
    rw [← Fintype.prod_sum (fun j (x : Fin M.m → Bool) => M.pairLaw (v j) x)]
  rw [Fintype.sum_prod_type]
  simp only [← sum_mul, hm]
  have h2 : ∀ j0 : Fin B, ∑ v : BitBatch M.n B, (∏ j, Q (v j)) * g (v j0) = ∑ w, Q w * g w := by
    intro j0
    have h3 : ∀ v : BitBatch M.n B, (∏ j, Q (v j)) * g (v j0) = ∏ j, (Q (v j) * if j = j0 then g (v j) else 1) := by
      intro v
      rw [prod_mul_distrib]
      congr 1
      rw [prod_ite_eq' univ j0 (fun j => g (v j))]
      simp
    simp only [h3]
    rw [← Fintype.prod_sum (fun j (w : Fin M.n → Bool) => Q w * if j = j0 then g w else 1)]
    rw [Fintype.prod_eq_single j0]
    · simp
    · intro j hj
      simp [hj, hQ]
  have hB' : (B : ℝ) ≠ 0 := by positivity
  calc ∑ v : BitBatch M.n B, (∏ j, Q (v j)) * ((∑ j, g (v j)) / B)
      = (∑ j0 : Fin B, ∑ v : BitBatch M.n B, (∏ j, Q (v j)) * g (v j0)) / B := by
        rw [sum_comm, sum_div]
        refine sum_congr rfl (fun v _ => ?_)
        rw [← mul_sum, mul_div_assoc]
    _ = ∑ w, Q w * g w := by
        simp only [h2]
        rw [sum_const, card_univ, Fintype.card_fin, nsmul_eq_mul, mul_div_cancel_left₀ _ hB']

/-- The expectation of a function of something with finitely many values. -/
theorem expect_finite {Ω Y : Type} [MeasurableSpace Ω] {P : Measure Ω} [IsProbabilityMeasure P] [Fintype Y] (X : Ω → Y) (hX : ∀ y, MeasurableSet {ω | X ω = y}) (g : Y → ℝ) :
    Integrable (fun ω => g (X ω)) P ∧ ∫ ω, g (X ω) ∂P = ∑ y, P.real {ω | X ω = y} * g y := by
  have e : (fun ω => g (X ω)) = fun ω => ∑ y, Set.indicator {ω | X ω = y} (fun _ => g y) ω := by
    funext ω
    rw [sum_eq_single (X ω)]
    · rw [Set.indicator_of_mem]; rfl
    · intro y _ hy
      exact Set.indicator_of_notMem (fun h => hy (Eq.symm h)) _
    · simp
  have hi : ∀ y ∈ (univ : Finset Y), Integrable (Set.indicator {ω | X ω = y} (fun _ => g y)) P := fun y _ => (integrable_const _).indicator (hX y)
  rw [e]
  refine ⟨integrable_finsetSum _ hi, ?_⟩
  rw [integral_finsetSum _ hi]
  refine sum_congr rfl (fun y _ => ?_)
  rw [integral_indicator_const _ (hX y), smul_eq_mul]

end Verif.Props
