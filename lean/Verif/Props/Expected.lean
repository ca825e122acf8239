import Verif.Lemmas.Expected
import Verif.Props.Stationary
/-!
# C87: the expected step of the trainer
-/
namespace Verif.Props
open Spec Backprop Finset MeasureTheory Markov
open scoped Classical

variable {Ω S : Type} [MeasurableSpace Ω] {P : Measure Ω} [Fintype S] [IsProbabilityMeasure P]
variable {n m B x c y s : Nat} {r : RbmVars} {shp : Backprop.Leaf → List Nat} {val : Backprop.Leaf → Nat → Nat → ℝ} {D : Ω → Nat → Draw}

/-- The likelihood is that of the machine's distribution: for bits, the probability of the visible vector. -/
theorem c87_likelihood (M : Boltzmann) (v : Fin M.n → Bool) :
    M.visibleProb (ofBits v) = ∑ h : Fin M.m → Bool, M.pairLaw v h ∧ 0 < M.visibleProb (ofBits v) ∧ ∑ w : Fin M.n → Bool, M.visibleProb (ofBits w) = 1 := by
  have hZ := partition_pos M
  refine ⟨?_, ?_, ?_⟩
  · unfold Boltzmann.visibleProb Boltzmann.pairLaw
    rw [← sum_div]; rfl
  · unfold Boltzmann.visibleProb
    exact div_pos (sum_pos (fun _ _ => Real.exp_pos _) (by simp [bits])) hZ
  · unfold Boltzmann.visibleProb
    rw [← sum_div]
    exact div_self hZ.ne'

/-- The bits a chain ends with, and the step taken from them. -/
theorem step_of_bits {val' : Backprop.Leaf → Nat → Nat → ℝ} {lr : ℝ} {w : Backprop.Leaf → Nat → Nat → ℝ} (h : RbmFits r n m B x c shp) {b : BitBatch n B}
    (hs : CdStep r n m B x c lr w val') {v p q : Nat} (hv : v = r.w ∨ v = r.hb ∨ v = r.vb) (he : IsEntry shp v p q)
    (hw : ∀ v, (v = r.w ∨ v = r.hb ∨ v = r.vb) → w ⟨true, v⟩ = val ⟨true, v⟩) (hx : w ⟨false, x⟩ = val ⟨false, x⟩) (hc : IsBits (w ⟨false, c⟩) b) :
    val' ⟨true, v⟩ p q = val ⟨true, v⟩ p q - lr * ((∑ j ∈ range B, freeScore val r n m v p q (fun z => val ⟨false, x⟩ z j)) / B -
      (∑ j, freeScore val r n m v p q (ofBits (b j))) / B) := by
  rw [cdStep_entry h hs hv he, hw v hv, hx]
  have e1 : ∀ y y' : Nat → ℝ, (∀ z, z < n → y' z = y z) → freeScore w r n m v p q y' = freeScore val r n m v p q y :=
    fun y y' hy => freeScore_congr r n m v p q (hw _ (.inl rfl)) (hw _ (.inr (.inl rfl))) hy
  have e2 : ∑ j ∈ range B, freeScore w r n m v p q (fun z => w ⟨false, c⟩ z j) = ∑ j, freeScore val r n m v p q (ofBits (b j)) := by
    rw [sum_range]
    exact sum_congr rfl (fun j _ => e1 _ _ (fun z hz => column_bits hc j z hz))
  rw [e2]
  simp only [fun j => e1 (fun z => val ⟨false, x⟩ z j) (fun z => val ⟨false, x⟩ z j) (fun _ _ => rfl)]

theorem stationary_after (M : Boltzmann) {B : Nat} (k : Nat) (μ : BitBatch M.m B → ℝ) (hμ : ∀ u, μ u = M.hiddenLaw u) (v : BitBatch M.n B) (u : BitBatch M.m B) :
    after (visibleGiven M) (hiddenGiven M) k (roundLaw (visibleGiven M) (hiddenGiven M) id μ) (v, u) = M.law v u := by
  have C := conditionals M B
  refine after_stationary C k _ (fun v h => round_stationary C id _ (fun h => ?_) v h) v u
  simp only [hμ, id]
  rw [sum_ite_eq' univ h]
  simp [Boltzmann.hiddenLaw]

/-- A call of the trainer with a persistent state that has the distribution of the machine's hidden units is, on average,
a step of gradient ascent on the mean log-likelihood of the input, for every entry of the weights and biases: the
entry after the call has the expectation `old + lr * gradient`. -/
theorem c87_persistent (env : Env ℝ) (hm : ∀ n, env.fits n = true) (hz : env.zero = 0) (on : Bool) (lr : ℝ) (hcy : c ≠ y) (hxy : x ≠ y)
    (h : RbmFits r n m B x c shp) (hs : shp ⟨true, s⟩ = [m, B]) (hv : s ≠ r.w ∧ s ≠ r.hb ∧ s ≠ r.vb) {X : Ω → BitBatch m B} (f : FairDraws P X D)
    (ρ : Ω → Backprop.Leaf → Tensor ℝ) (hρ : ∀ ω, LeavesHold (ρ ω) shp (withState s (X ω) val))
    (hlaw : ∀ u, P.real {ω | X ω = u} = (machine r n m val).hiddenLaw u) (k : Nat) (hk : k ≠ 0)
    (v p q : Nat) (hvar : v = r.w ∨ v = r.hb ∨ v = r.vb) (he : IsEntry shp v p q) :
    ∃ (W : Ω → ℝ) (G : ℝ), (∀ ω, ∃ ρ', rbmPcd env on lr r x c y s k (D ω) (ρ ω) = .ok ρ' ∧ HasEntry (ρ' ⟨true, v⟩) (leafSize (shp ⟨true, v⟩)) p q (W ω)) ∧
      HasDerivAt (fun t => (machine r n m (setAt val v p q t)).meanLogProb B (val ⟨false, x⟩)) G (val ⟨true, v⟩ p q) ∧
      Integrable W P ∧ ∫ ω, W ω ∂P = val ⟨true, v⟩ p q + lr * G := by
  obtain ⟨k, rfl⟩ := Nat.exists_eq_succ_of_ne_zero hk
  have hsv : ∀ v, (v = r.w ∨ v = r.hb ∨ v = r.vb) → s ≠ v := by rintro v (rfl | rfl | rfl); exacts [hv.1, hv.2.1, hv.2.2]
  have hws : ∀ (b : BitBatch m B) v, (v = r.w ∨ v = r.hb ∨ v = r.vb) → withState s b val ⟨true, v⟩ = val ⟨true, v⟩ := by
    intro b v hv
    have := hsv v hv
    simp [withState, this.symm]
  have hM : ∀ b : BitBatch m B, machine r n m (withState s b val) = machine r n m val := by
    intro b
    unfold machine
    rw [hws b _ (.inl rfl), hws b _ (.inr (.inl rfl)), hws b _ (.inr (.inr rfl))]
  have hb : ∀ ω, IsBits (withState s (X ω) val ⟨true, s⟩) (X ω) := by
    intro ω j i
    simp only [withState, if_true]
    exact bitMatrix_of (X ω) j i
  obtain ⟨Y, h1, h2, hmeas⟩ := rounds_fair (machine r n m val) k f id (fun ω => withState s (X ω) val ⟨false, c⟩) (fun ω => withState s (X ω) val ⟨true, s⟩) hb
  have h3 : ∀ (v : BitBatch n B) (u : BitBatch m B), P.real {ω | Y ω = (v, u)} = (machine r n m val).law v u :=
    fun v u => (h2 (v, u)).trans (stationary_after (machine r n m val) k _ hlaw v u)
  let g : BitBatch n B × BitBatch m B → ℝ := fun b => val ⟨true, v⟩ p q - lr * ((∑ j ∈ range B, freeScore val r n m v p q (fun z => val ⟨false, x⟩ z j)) / B -
      (∑ j, freeScore val r n m v p q (ofBits (b.1 j))) / B)
  obtain ⟨i1, i2⟩ := expect_finite (P := P) Y hmeas g
  refine ⟨fun ω => g (Y ω), _, fun ω => ?_, meanLogProb_deriv r n m B v p q h.pos.2.2 (val ⟨false, x⟩), i1, ?_⟩
  · obtain ⟨ρ', shp', val', g1, g2, g3, g4, g5⟩ := c69_persistent env hm hz on lr (ρ ω) (hρ ω) h y s hcy hxy hs hv (k + 1) hk (D ω)
    obtain ⟨⟨mid, g6, g7⟩, _⟩ := g5
    have hvs : (⟨true, v⟩ : Backprop.Leaf) ≠ ⟨true, s⟩ := by intro hh; injection hh with _ hh; exact hsv v hvar hh.symm
    have hcne : (⟨false, c⟩ : Backprop.Leaf) ≠ ⟨false, y⟩ := by intro hh; injection hh with _ hh; exact hcy hh
    have hxne : (⟨false, x⟩ : Backprop.Leaf) ≠ ⟨false, y⟩ := by intro hh; injection hh with _ hh; exact hxy hh
    have hxc : (⟨false, x⟩ : Backprop.Leaf) ≠ ⟨false, c⟩ := by intro hh; injection hh with _ hh; exact h.other hh
    have e := step_of_bits (val := val) (b := (Y ω).1) h g6 hvar he (fun v hv => by
      simp only [withChain, Backprop.Leaf.mk.injEq, Bool.true_eq_false, false_and, if_false]
      exact hws (X ω) v hv) (by simp [withChain, withState, hxne, hxc]) (by
      simp only [withChain, if_neg hcne, if_true]
      rw [hM (X ω)]
      exact (h1 ω).1)
    refine ⟨ρ', g1, val' ⟨true, v⟩, ?_, by rw [g7 _ hvs, e]⟩
    rcases hvar with rfl | rfl | rfl
    · rw [h.weight]; exact leaf_shows g2 (.inl g3.weight)
    · rw [h.hbias]; exact leaf_shows g2 (.inr ⟨rfl, g3.hbias⟩)
    · rw [h.vbias]; exact leaf_shows g2 (.inr ⟨rfl, g3.vbias⟩)
  · rw [i2]
    have e1 : ∑ y, P.real {ω | Y ω = y} = 1 := law_total hmeas
    have e2 := batch_mean (machine r n m val) B h.pos.2.2 (fun w => freeScore val r n m v p q (ofBits w))
    have e3 : ∀ b : BitBatch n B × BitBatch m B, P.real {ω | Y ω = b} * g b =
        P.real {ω | Y ω = b} * (val ⟨true, v⟩ p q - lr * ((∑ j ∈ range B, freeScore val r n m v p q (fun z => val ⟨false, x⟩ z j)) / B)) +
        lr * ((machine r n m val).law b.1 b.2 * ((∑ j, freeScore val r n m v p q (ofBits (b.1 j))) / B)) := by
      intro b
      rw [show (machine r n m val).law b.1 b.2 = P.real {ω | Y ω = b} from (h3 b.1 b.2).symm]
      simp only [g]
      ring
    have e4 : ∑ b : BitBatch n B × BitBatch m B, P.real {ω | Y ω = b} * g b =
        val ⟨true, v⟩ p q - lr * ((∑ j ∈ range B, freeScore val r n m v p q (fun z => val ⟨false, x⟩ z j)) / B) +
        lr * ∑ w : Fin n → Bool, (∑ h : Fin m → Bool, (machine r n m val).pairLaw w h) * freeScore val r n m v p q (ofBits w) := by
      rw [sum_congr rfl (fun b _ => e3 b), sum_add_distrib, ← sum_mul, ← mul_sum]
      congr 1
      · rw [show ∑ b : BitBatch n B × BitBatch m B, P.real {ω | Y ω = b} = 1 from e1, one_mul]
      · congr 1
    refine (Eq.trans e4 ?_)
    ring

/-- A call without a persistent state: its outcome and what it is on average, by the distribution of the chain's end. -/
theorem contrastive_expect (env : Env ℝ) (hm : ∀ n, env.fits n = true) (hz : env.zero = 0) (on : Bool) (lr : ℝ) (hcy : c ≠ y) (hxy : x ≠ y)
    (h : RbmFits r n m B x c shp) {X : Ω → S} (f : FairDraws P X D) (ρ : Backprop.Leaf → Tensor ℝ) (hρ : LeavesHold ρ shp val)
    (v p q : Nat) (hvar : v = r.w ∨ v = r.hb ∨ v = r.vb) (he : IsEntry shp v p q) :
    ∃ (W : Nat → Ω → ℝ) (μ : BitBatch m B → ℝ) (g : BitBatch n B × BitBatch m B → ℝ),
      (∀ k ω, ∃ ρ', rbmCd env on lr r x c y (k + 1) (D ω) ρ = .ok ρ' ∧ HasEntry (ρ' ⟨true, v⟩) (leafSize (shp ⟨true, v⟩)) p q (W k ω)) ∧
      (∀ h, μ h = ∏ a : Fin B × Fin m, bern ((machine r n m val).hiddenOn (fun z => val ⟨false, x⟩ z a.1) a.2) (h a.1 a.2)) ∧ (∀ h, 0 ≤ μ h) ∧ ∑ h, μ h = 1 ∧
      (∀ b, g b = val ⟨true, v⟩ p q - lr * ((∑ j ∈ range B, freeScore val r n m v p q (fun z => val ⟨false, x⟩ z j)) / B -
        (∑ j, freeScore val r n m v p q (ofBits (b.1 j))) / B)) ∧
      ∀ k, Integrable (W k) P ∧ ∫ ω, W k ω ∂P = ∑ b : BitBatch n B × BitBatch m B,
        after (visibleGiven (machine r n m val)) (hiddenGiven (machine r n m val)) k (roundLaw (visibleGiven (machine r n m val)) (hiddenGiven (machine r n m val)) id μ) b * g b := by
  obtain ⟨H, e1, e2, e3⟩ := half_fair (machine r n m val) (B := B) f (fun _ => val ⟨false, x⟩)
  have hY := fun k => rounds_fair (machine r n m val) k e2 id (fun _ => val ⟨false, c⟩) (fun ω => (machine r n m val).drawHidden (D ω 0) (val ⟨false, x⟩)) e1
  choose Y h1 h2 hmeas using hY
  let g : BitBatch n B × BitBatch m B → ℝ := fun b => val ⟨true, v⟩ p q - lr * ((∑ j ∈ range B, freeScore val r n m v p q (fun z => val ⟨false, x⟩ z j)) / B -
      (∑ j, freeScore val r n m v p q (ofBits (b.1 j))) / B)
  have hE := fun k => expect_finite (P := P) (Y k) (hmeas k) g
  refine ⟨fun k ω => g (Y k ω), fun u => P.real {ω | H ω = u}, g, fun k ω => ?_, fun u => ?_, fun u => measureReal_nonneg, law_total e2.seen, fun b => rfl,
    fun k => ⟨(hE k).1, (hE k).2.trans (sum_congr rfl fun b _ => congrArg (· * g b) (h2 k b))⟩⟩
  · obtain ⟨ρ', shp', val', g1, g2, g3, g4⟩ := c69_train env hm hz on lr ρ hρ h y hcy hxy (k + 1) (Nat.succ_ne_zero k) (D ω)
    have hcne : (⟨false, c⟩ : Backprop.Leaf) ≠ ⟨false, y⟩ := by intro hh; injection hh with _ hh; exact hcy hh
    have hxne : (⟨false, x⟩ : Backprop.Leaf) ≠ ⟨false, y⟩ := by intro hh; injection hh with _ hh; exact hxy hh
    have hxc : (⟨false, x⟩ : Backprop.Leaf) ≠ ⟨false, c⟩ := by intro hh; injection hh with _ hh; exact h.other hh
    have e := step_of_bits (val := val) (b := (Y k ω).1) h g4 hvar he (fun v hv => by
      simp only [withChain, Backprop.Leaf.mk.injEq, Bool.true_eq_false, false_and, if_false]) (by simp [withChain, hxne, hxc]) (by
      simp only [withChain, if_neg hcne, if_true]
      exact (h1 k ω).1)
    refine ⟨ρ', g1, val' ⟨true, v⟩, ?_, e⟩
    rcases hvar with rfl | rfl | rfl
    · rw [h.weight]; exact leaf_shows g2 (.inl g3.weight)
    · rw [h.hbias]; exact leaf_shows g2 (.inr ⟨rfl, g3.hbias⟩)
    · rw [h.vbias]; exact leaf_shows g2 (.inr ⟨rfl, g3.vbias⟩)
  · show P.real {ω | H ω = u} = _
    rw [e3 u, ← sum_mul, law_total f.seen, one_mul]
    rfl

/-- Without a persistent state: the expectation tends to that of gradient ascent on the mean log-likelihood, for ever
longer chains, and geometrically in their length. -/
theorem c87_contrastive (env : Env ℝ) (hm : ∀ n, env.fits n = true) (hz : env.zero = 0) (on : Bool) (lr : ℝ) (hcy : c ≠ y) (hxy : x ≠ y)
    (h : RbmFits r n m B x c shp) {X : Ω → S} (f : FairDraws P X D) (ρ : Backprop.Leaf → Tensor ℝ) (hρ : LeavesHold ρ shp val)
    (v p q : Nat) (hvar : v = r.w ∨ v = r.hb ∨ v = r.vb) (he : IsEntry shp v p q) :
    ∃ (W : Nat → Ω → ℝ) (G : ℝ), (∀ k ω, ∃ ρ', rbmCd env on lr r x c y (k + 1) (D ω) ρ = .ok ρ' ∧ HasEntry (ρ' ⟨true, v⟩) (leafSize (shp ⟨true, v⟩)) p q (W k ω)) ∧
      HasDerivAt (fun t => (machine r n m (setAt val v p q t)).meanLogProb B (val ⟨false, x⟩)) G (val ⟨true, v⟩ p q) ∧
      (∀ k, Integrable (W k) P) ∧ Filter.Tendsto (fun k => ∫ ω, W k ω ∂P) Filter.atTop (nhds (val ⟨true, v⟩ p q + lr * G)) ∧
      ∃ K d : ℝ, 0 < d ∧ d ≤ 1 ∧ ∀ k, |∫ ω, W k ω ∂P - (val ⟨true, v⟩ p q + lr * G)| ≤ K * (1 - d) ^ k := by
  have C := conditionals (machine r n m val) B
  obtain ⟨δ, d0, d1, hδ⟩ := minor C
  obtain ⟨W, μ, g, h1, _, hμ0, hμ1, hg, hE⟩ := contrastive_expect env hm hz on lr hcy hxy h f ρ hρ v p q hvar he
  refine ⟨W, _, h1, meanLogProb_deriv r n m B v p q h.pos.2.2 (val ⟨false, x⟩), fun k => (hE k).1, ?_⟩
  have e3 : ∑ b : BitBatch n B × BitBatch m B, (machine r n m val).law b.1 b.2 = 1 := by rw [Fintype.sum_prod_type]; exact C.total
  have e4 := batch_mean (machine r n m val) B h.pos.2.2 (fun w => freeScore val r n m v p q (ofBits w))
  have e5 : ∑ b : BitBatch n B × BitBatch m B, (machine r n m val).law b.1 b.2 * g b =
      val ⟨true, v⟩ p q - lr * ((∑ j ∈ range B, freeScore val r n m v p q (fun z => val ⟨false, x⟩ z j)) / B) +
      lr * ∑ w : Fin n → Bool, (∑ h : Fin m → Bool, (machine r n m val).pairLaw w h) * freeScore val r n m v p q (ofBits w) := by
    have : ∀ b : BitBatch n B × BitBatch m B, (machine r n m val).law b.1 b.2 * g b =
        (machine r n m val).law b.1 b.2 * (val ⟨true, v⟩ p q - lr * ((∑ j ∈ range B, freeScore val r n m v p q (fun z => val ⟨false, x⟩ z j)) / B)) +
        lr * ((machine r n m val).law b.1 b.2 * ((∑ j, freeScore val r n m v p q (ofBits (b.1 j))) / B)) := fun b => by rw [hg]; ring
    rw [sum_congr rfl (fun b _ => this b), sum_add_distrib, ← sum_mul, ← mul_sum, e3, one_mul]
    congr 1
    congr 1
  have e6 : ∀ a b c : ℝ, a - lr * b + lr * c = a + lr * (-b + c) := fun a b c => by ring
  rw [e6] at e5
  rw [← e5]
  have hb : ∀ k, |∫ ω, W k ω ∂P - ∑ b : BitBatch n B × BitBatch m B, (machine r n m val).law b.1 b.2 * g b| ≤
      (2 * ∑ b : BitBatch n B × BitBatch m B, |g b|) * (1 - δ) ^ k := by
    intro k
    rw [(hE k).2, ← sum_sub_distrib, mul_sum, sum_mul]
    refine (abs_sum_le_sum_abs _ _).trans (sum_le_sum fun b _ => ?_)
    rw [← sub_mul, abs_mul]
    have := after_close C d1 hδ k (roundLaw (visibleGiven (machine r n m val)) (hiddenGiven (machine r n m val)) id μ)
      (fun x => round_nonneg C id _ hμ0 x) ((round_total C id μ).trans hμ1) b
    calc _ ≤ 2 * (1 - δ) ^ k * |g b| := mul_le_mul_of_nonneg_right this (abs_nonneg _)
      _ = _ := by ring
  refine ⟨?_, _, δ, d0, d1, hb⟩
  rw [tendsto_iff_dist_tendsto_zero]
  refine squeeze_zero (g := fun k => (2 * ∑ b : BitBatch n B × BitBatch m B, |g b|) * (1 - δ) ^ k) (fun _ => dist_nonneg) (fun k => hb k) ?_
  have := (tendsto_pow_atTop_nhds_zero_of_lt_one (r := 1 - δ) (by linarith) (by linarith)).const_mul (2 * ∑ b : BitBatch n B × BitBatch m B, |g b|)
  simpa using this

/-- The hypotheses hold of a machine with 3 visible and 2 hidden units, batches of 4 and any parameters. -/
example (w0 : Nat → Nat → ℝ) (b0 d0 : Nat → ℝ) (inp : Nat → Nat → ℝ) : ∃ (Ω : Type) (_ : MeasurableSpace Ω) (P : Measure Ω) (_ : IsProbabilityMeasure P)
    (r : RbmVars) (shp : Backprop.Leaf → List Nat) (val : Backprop.Leaf → Nat → Nat → ℝ) (X : Ω → BitBatch 2 4) (D : Ω → Nat → Draw) (ρ : Ω → Backprop.Leaf → Tensor ℝ),
    RbmFits r 3 2 4 0 1 shp ∧ shp ⟨true, 3⟩ = [2, 4] ∧ (3 ≠ r.w ∧ 3 ≠ r.hb ∧ 3 ≠ r.vb) ∧ machine r 3 2 val = ⟨3, 2, w0, b0, d0⟩ ∧ val ⟨false, 0⟩ = inp ∧
    FairDraws P X D ∧ (∀ ω, LeavesHold (ρ ω) shp (withState 3 (X ω) val)) ∧ (∀ u, P.real {ω | X ω = u} = (machine r 3 2 val).hiddenLaw u) ∧
    IsEntry shp r.w 1 2 ∧ IsEntry shp r.hb 1 0 ∧ IsEntry shp r.vb 2 0 := by
  let M : Boltzmann := ⟨3, 2, w0, b0, d0⟩
  let shp : Backprop.Leaf → List Nat := fun l =>
    if l = ⟨true, 0⟩ then [2, 3] else if l = ⟨true, 1⟩ then [2] else if l = ⟨true, 2⟩ then [3] else
    if l = ⟨true, 3⟩ then [2, 4] else [3, 4]
  have hs : ∀ l, Full (shp l) := by
    intro l
    simp only [shp]
    split_ifs <;> exact ⟨by simp, by simp⟩
  let val : Backprop.Leaf → Nat → Nat → ℝ := fun l i j =>
    if l = ⟨true, 0⟩ then w0 i j else if l = ⟨true, 1⟩ then b0 i else if l = ⟨true, 2⟩ then d0 i else inp i j
  obtain ⟨Ω, _, P, _, X, D, f, hX⟩ := fair_exists (S := BitBatch M.m 4) (fun u => M.hiddenLaw u)
    (fun u => sum_nonneg (fun v _ => ((c86_law M 4).1 v u).le)) (by
      have := (c86_law M 4).2.1
      rw [sum_comm] at this
      exact this)
  choose ρ hρ using fun (ω : Ω) (l : Backprop.Leaf) => full_tensor (shp l) (hs l) (fun c => withState 3 (X ω) val l (c.getD 0 0) (c.getD 1 0))
  refine ⟨Ω, _, P, ‹_›, ⟨0, 1, 2⟩, shp, val, X, D, ρ, ⟨by decide, rfl, rfl, rfl, .inl rfl, .inl rfl, by decide, by decide⟩, rfl, by decide, rfl, rfl, f,
    hρ, hX, ?_, ?_, ?_⟩ <;> exact ⟨by decide, by decide⟩

end Verif.Props
