import Verif.Lemmas.Biased
import Verif.Props.Expected
/-!
# C87: contrastive divergence is biased, however long the chain
-/
namespace Verif.Props
open Spec Backprop Finset MeasureTheory Markov
open scoped Classical

variable {Ω S : Type} [MeasurableSpace Ω] {P : Measure Ω} [Fintype S] [IsProbabilityMeasure P]
variable {x c y : Nat} {r : RbmVars} {shp : Backprop.Leaf → List Nat} {val : Backprop.Leaf → Nat → Nat → ℝ} {D : Ω → Nat → Draw}

/-- A machine of one visible and one hidden unit without biases, shown a one: a call of contrastive divergence with
`k + 1` rounds moves the visible bias, on average, by less than gradient ascent does (the learning rate times a gap that
shrinks by the factor `d²` with each round and is never zero, unless the weight is). -/
theorem c87_always_biased (env : Env ℝ) (hm : ∀ n, env.fits n = true) (hz : env.zero = 0) (on : Bool) (lr : ℝ) (hcy : c ≠ y) (hxy : x ≠ y)
    (h : RbmFits r 1 1 1 x c shp) {X : Ω → S} (f : FairDraws P X D) (ρ : Backprop.Leaf → Tensor ℝ) (hρ : LeavesHold ρ shp val)
    (hhb : val ⟨true, r.hb⟩ 0 0 = 0) (hvb : val ⟨true, r.vb⟩ 0 0 = 0) (hx : val ⟨false, x⟩ 0 0 = 1) (k : Nat) (W : Ω → ℝ) (G : ℝ)
    (hW : ∀ ω, ∃ ρ', rbmCd env on lr r x c y (k + 1) (D ω) ρ = .ok ρ' ∧ HasEntry (ρ' ⟨true, r.vb⟩) (leafSize (shp ⟨true, r.vb⟩)) 0 0 (W ω))
    (hG : HasDerivAt (fun t => (machine r 1 1 (setAt val r.vb 0 0 t)).meanLogProb 1 (val ⟨false, x⟩)) G (val ⟨true, r.vb⟩ 0 0)) :
    ∃ d : ℝ, d = 1 / (1 + Real.exp (-val ⟨true, r.w⟩ 0 0)) - 1 / 2 ∧ 0 < G ∧ ∫ ω, W ω ∂P = lr * (1 - d ^ (2 * (k + 1))) * G ∧
      (lr ≠ 0 → val ⟨true, r.w⟩ 0 0 ≠ 0 → ∫ ω, W ω ∂P ≠ val ⟨true, r.vb⟩ 0 0 + lr * G) := by
  have he : IsEntry shp r.vb 0 0 := by
    refine ⟨?_, ?_⟩ <;> rw [h.vbias] <;> simp [leafSize]
  obtain ⟨W', μ, g, h1, h2, h3, h4, h5, h6⟩ := contrastive_expect env hm hz on lr hcy hxy h f ρ hρ r.vb 0 0 (.inr (.inr rfl)) he
  have hWW : W = W' k := by
    funext ω
    obtain ⟨ρ1, a1, f1, b1, c1⟩ := hW ω
    obtain ⟨ρ2, a2, f2, b2, c2⟩ := h1 k ω
    rw [a1] at a2
    injection a2 with a2
    subst a2
    rw [← c1, ← c2]
    rw [h.vbias] at b1 b2
    exact batch_unique b1 b2 0 0 (by simp [leafSize]) (by simp [leafSize])
  let w := val ⟨true, r.w⟩ 0 0
  let d : ℝ := logistic w - 1 / 2
  have hd : logistic w = 1 / 2 + d := by simp [d]
  have hdl : d < 1 / 2 ∧ -1 / 2 < d := ⟨by have := (logistic_mem w).2; simp only [d]; linarith, by have := (logistic_mem w).1; simp only [d]; linarith⟩
  have h0 : logistic 0 = 1 / 2 := by norm_num [logistic]
  have hd2 : d * d < 1 := by nlinarith [hdl.1, hdl.2]
  let qv : BitBatch 1 1 → BitBatch 1 1 → ℝ := visibleGiven (machine r 1 1 val)
  let qh : BitBatch 1 1 → BitBatch 1 1 → ℝ := hiddenGiven (machine r 1 1 val)
  have hv : ∀ a b, qv a b = bern (1 / 2 + d * if a 0 0 then 1 else 0) (b 0 0) := by
    intro a b
    have : qv a b = bern ((machine r 1 1 val).visibleOn (ofBits (a 0)) 0) (b 0 0) := by
      show ∏ j : Fin 1, ∏ z : Fin 1, bern ((machine r 1 1 val).visibleOn (ofBits (a j)) z) (b j z) = _
      simp
    rw [this, visibleOn_eq _ _ _ (by simp [machine])]
    congr 1
    simp only [machine, sum_range_one, hvb, ofBits]
    cases e : a 0 0 <;> simp_all [w]
  have hh : ∀ a b, qh a b = bern (1 / 2 + d * if a 0 0 then 1 else 0) (b 0 0) := by
    intro a b
    have : qh a b = bern ((machine r 1 1 val).hiddenOn (ofBits (a 0)) 0) (b 0 0) := by
      show ∏ j : Fin 1, ∏ z : Fin 1, bern ((machine r 1 1 val).hiddenOn (ofBits (a j)) z) (b j z) = _
      simp
    rw [this, hiddenOn_eq _ _ _ (by simp [machine])]
    congr 1
    simp only [machine, sum_range_one, hhb, ofBits]
    cases e : a 0 0 <;> simp_all [w]
  have hsc : ∀ y : Nat → ℝ, freeScore val r 1 1 r.vb 0 0 y = -y 0 := by
    intro y
    have n1 : ¬ r.w = r.vb := h.vars.2.1
    have n2 : ¬ r.hb = r.vb := h.vars.2.2
    simp [freeScore, n1, n2]
  have hμs : ∑ s, μ s * (if s 0 0 then 1 else 0) = 1 / 2 + d := by
    rw [sum_unit, h2 (fun _ _ => true)]
    have : ∏ a : Fin 1 × Fin 1, bern ((machine r 1 1 val).hiddenOn (fun z => val ⟨false, x⟩ z a.1) a.2) true = logistic w := by
      rw [Fintype.prod_prod_type]
      simp only [univ_unique, prod_singleton, bern, if_true]
      rw [hiddenOn_eq _ _ _ (by simp [machine])]
      simp [machine, hhb, hx, w]
    rw [this, hd]
    simp
  let p : ℝ := (1 / 2 + d / 2) / (1 - d * d)
  have hp : p * (1 - d * d) = 1 / 2 + d / 2 := div_mul_cancel₀ _ (by linarith)
  have hfix : unitOn (after qv qh k (roundLaw qv qh id μ)) = p + (d * d) ^ (k + 1) * (1 - p) := by
    obtain ⟨e1, e2⟩ := round_unit hv hh id μ h4
    have := after_unit hd2.ne hv hh k _ ((round_one hv hh id μ).trans h4) e2
    simp only [id] at e1
    rw [e1, hμs] at this
    rw [pow_succ]
    linear_combination this - (d * d) ^ k * hp
  have hlaw : unitOn (fun b => (machine r 1 1 val).law b.1 b.2) = p := by
    have C := conditionals (machine r 1 1 val) 1
    let L : BitBatch 1 1 × BitBatch 1 1 → ℝ := fun b => (machine r 1 1 val).law b.1 b.2
    have e0 : roundLaw qv qh Prod.snd L = L := by
      funext b
      exact after_stationary C 1 L (fun _ _ => rfl) b.1 b.2
    have e1 : ∑ b, L b = 1 := by rw [Fintype.sum_prod_type]; exact C.total
    obtain ⟨e2, e3⟩ := round_unit hv hh Prod.snd L e1
    rw [e0] at e2 e3
    rw [show ∑ s, L s * (if s.2 0 0 then 1 else 0) = hidOn L from rfl, e3] at e2
    show unitOn L = p
    have hne : (1 - d * d) ≠ 0 := by linarith
    refine mul_right_cancel₀ hne ?_
    rw [hp]
    linear_combination e2
  have hGe : G = 1 - p := by
    have := hG.unique (meanLogProb_deriv r 1 1 1 r.vb 0 0 one_pos (val ⟨false, x⟩))
    rw [this]
    have e := batch_mean (machine r 1 1 val) 1 one_pos (fun w => freeScore val r 1 1 r.vb 0 0 (ofBits w))
    rw [show ∑ w : Fin 1 → Bool, (∑ h : Fin 1 → Bool, (machine r 1 1 val).pairLaw w h) * freeScore val r 1 1 r.vb 0 0 (ofBits w) =
      ∑ w, (∑ h : Fin (machine r 1 1 val).m → Bool, (machine r 1 1 val).pairLaw w h) * freeScore val r 1 1 r.vb 0 0 (ofBits w) from rfl, ← e, ← hlaw]
    have e' : ∀ (L : ℝ) (b : BitBatch 1 1), L * ((∑ j : Fin 1, freeScore val r 1 1 r.vb 0 0 (ofBits (b j))) / ((1 : Nat) : ℝ)) = -(L * if b 0 0 then 1 else 0) := by
      intro L b
      rw [Fin.sum_univ_one, hsc]
      cases e : b 0 0 <;> simp [ofBits, e]
    unfold unitOn
    rw [sub_eq_add_neg, ← sum_neg_distrib]
    congr 1
    · simp [hsc, hx]
    · exact sum_congr rfl (fun b _ => e' _ b.1)
  have hI : ∫ ω, W ω ∂P = lr * (1 - unitOn (after qv qh k (roundLaw qv qh id μ))) := by
    rw [hWW, (h6 k).2]
    have e1 : ∑ b, after qv qh k (roundLaw qv qh id μ) b = 1 := ((after_one hv hh k _).trans (round_one hv hh id μ)).trans h4
    have e2 : ∀ b : BitBatch 1 1 × BitBatch 1 1, after qv qh k (roundLaw qv qh id μ) b * g b =
        lr * (after qv qh k (roundLaw qv qh id μ) b) - lr * (after qv qh k (roundLaw qv qh id μ) b * if b.1 0 0 then 1 else 0) := by
      intro b
      rw [h5]
      simp only [hsc, sum_range_one, hx, hvb, Fin.sum_univ_one, ofBits]
      cases e : b.1 0 0 <;> simp [e] <;> ring
    refine (sum_congr rfl (fun b _ => e2 b)).trans ?_
    rw [sum_sub_distrib, ← mul_sum, ← mul_sum, e1]
    unfold unitOn
    ring
  have hp1 : p < 1 := by
    refine (div_lt_one (by linarith)).2 ?_
    nlinarith [hdl.1, hdl.2]
  refine ⟨d, by simp [d, logistic, w], by linarith, ?_, ?_⟩
  · rw [hI, hfix, hGe, pow_mul, pow_two]
    ring
  · intro hlr hw
    have hd0 : d ≠ 0 := by
      intro e
      have : logistic w = 1 / 2 := by rw [hd, e, add_zero]
      unfold logistic at this
      have h1 : (0 : ℝ) < 1 + Real.exp (-w) := by positivity
      rw [div_eq_div_iff h1.ne' two_ne_zero] at this
      have : Real.exp (-w) = 1 := by linarith
      rw [Real.exp_eq_one_iff] at this
      exact hw (by linarith)
    rw [hI, hfix, hvb, hGe]
    intro e
    have : lr * ((d * d) ^ (k + 1) * (1 - p)) = 0 := by linarith
    have hne : (d * d) ^ (k + 1) * (1 - p) ≠ 0 := mul_ne_zero (pow_ne_zero _ (mul_ne_zero hd0 hd0)) (by linarith)
    exact (mul_ne_zero hlr hne) this

/-- The hypotheses hold, for any weight. -/
example (env : Env ℝ) (hm : ∀ n, env.fits n = true) (hz : env.zero = 0) (on : Bool) (lr w0 : ℝ) (k : Nat) :
    ∃ (Ω : Type) (_ : MeasurableSpace Ω) (P : Measure Ω) (_ : IsProbabilityMeasure P) (r : RbmVars) (shp : Backprop.Leaf → List Nat)
      (val : Backprop.Leaf → Nat → Nat → ℝ) (X : Ω → Bool) (D : Ω → Nat → Draw) (ρ : Backprop.Leaf → Tensor ℝ) (W : Ω → ℝ) (G : ℝ),
    RbmFits r 1 1 1 0 1 shp ∧ FairDraws P X D ∧ LeavesHold ρ shp val ∧ val ⟨true, r.w⟩ 0 0 = w0 ∧ val ⟨true, r.hb⟩ 0 0 = 0 ∧ val ⟨true, r.vb⟩ 0 0 = 0 ∧
    val ⟨false, 0⟩ 0 0 = 1 ∧
    (∀ ω, ∃ ρ', rbmCd env on lr r 0 1 2 (k + 1) (D ω) ρ = .ok ρ' ∧ HasEntry (ρ' ⟨true, r.vb⟩) (leafSize (shp ⟨true, r.vb⟩)) 0 0 (W ω)) ∧
    HasDerivAt (fun t => (machine r 1 1 (setAt val r.vb 0 0 t)).meanLogProb 1 (val ⟨false, 0⟩)) G (val ⟨true, r.vb⟩ 0 0) := by
  let shp : Backprop.Leaf → List Nat := fun l => if l = ⟨true, 0⟩ then [1, 1] else if l = ⟨true, 1⟩ then [1] else if l = ⟨true, 2⟩ then [1] else [1, 1]
  have hs : ∀ l, Full (shp l) := by
    intro l
    simp only [shp]
    split_ifs <;> exact ⟨by simp, by simp⟩
  let val : Backprop.Leaf → Nat → Nat → ℝ := fun l _ _ => if l = ⟨true, 0⟩ then w0 else if l = ⟨true, 1⟩ then 0 else if l = ⟨true, 2⟩ then 0 else 1
  obtain ⟨Ω, _, P, _, X, D, f, _⟩ := fair_exists (S := Bool) (fun _ => 1 / 2) (fun _ => by norm_num) (by simp)
  choose ρ hρ using fun (l : Backprop.Leaf) => full_tensor (shp l) (hs l) (fun c => val l (c.getD 0 0) (c.getD 1 0))
  have h : RbmFits ⟨0, 1, 2⟩ 1 1 1 0 1 shp := ⟨by decide, rfl, rfl, rfl, .inl rfl, .inl rfl, by decide, by decide⟩
  obtain ⟨W, G, a1, a2, _⟩ := c87_contrastive (val := val) env hm hz on lr (y := 2) (by decide) (by decide) h f ρ hρ 2 0 0 (.inr (.inr rfl)) ⟨by decide, by decide⟩
  exact ⟨Ω, _, P, ‹_›, ⟨0, 1, 2⟩, shp, val, X, D, ρ, W k, G, h, f, hρ, rfl, rfl, rfl, rfl, a1 k, a2⟩

end Verif.Props
