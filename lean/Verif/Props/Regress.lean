import Verif.Props.Descent
import Verif.Lemmas.Regress
import Mathlib.Order.ConditionallyCompleteLattice.Basic
/-!
# C89: training a network of one layer without activation is linear regression, and it converges
-/
namespace Verif.Props
open Spec Backprop Finset Regress
open scoped Classical

variable {shp : Backprop.Leaf → List Nat} {val : Backprop.Leaf → Nat → Nat → ℝ}

/-- The error on paper, for a linear model. -/
theorem error_linear (S : Setup) (l : NetLayer) (hl : S.Linear l) (v : Backprop.Leaf → Nat → Nat → ℝ) :
    S.error v = Spec.linError S.n l.out S.B (v ⟨false, S.x⟩) (v ⟨false, S.y⟩) (v ⟨true, l.w⟩) (fun i => v ⟨true, l.bias⟩ i 0) := by
  obtain ⟨h1, h2⟩ := hl
  unfold Setup.error sqError
  rw [h1]
  simp only [netSpec, List.map_cons, List.map_nil, h2, actFn, width, feed]
  rfl

/-- One step of gradient descent on paper is a step of least squares. -/
theorem step_linear (S : Setup) (hS : S.Fits shp) (l : NetLayer) (hl : S.Linear l) (s : List ℝ × List ℝ) (lr : ℝ)
    {val' : Backprop.Leaf → Nat → Nat → ℝ} (h : S.Step shp lr (S.given s val) val') :
    LinStep S.n l.out S.B (S.xs s) (S.ys s) lr (val ⟨true, l.w⟩) (fun i => val ⟨true, l.bias⟩ i 0) (val' ⟨true, l.w⟩) (fun i => val' ⟨true, l.bias⟩ i 0) := by
  have hp : params S.ls = [l.w, l.bias] := by rw [hl.1]; rfl
  have hnet := hS.net
  rw [hl.1] at hnet
  obtain ⟨h1, h2, h3, -⟩ := hnet
  have hnd : l.w ≠ l.bias := by have := hS.nodup; rw [hp] at this; simpa using this
  have gx : S.given s val ⟨false, S.x⟩ = S.xs s := by funext i j; simp [Setup.given, Setup.xs]
  have gy : S.given s val ⟨false, S.y⟩ = S.ys s := by
    funext i j
    have : S.y ≠ S.x := fun h => hS.other h.symm
    simp [Setup.given, Setup.ys, this]
  have gv : ∀ v, S.given s val ⟨true, v⟩ = val ⟨true, v⟩ := fun v => by funext i j; simp [Setup.given]
  have sf : ∀ v p q t z, setAt (S.given s val) v p q t ⟨false, z⟩ = S.given s val ⟨false, z⟩ := fun v p q t z => by
    funext i j; simp [setAt]
  constructor
  · intro i hi z hz
    obtain ⟨D, d1, d2⟩ := h.moved l.w (by rw [hp]; simp) i z (by unfold IsEntry; rw [h2]; exact ⟨hi, hz⟩)
    have e : (fun t => S.error (setAt (S.given s val) l.w i z t)) = fun t =>
        Spec.linError S.n l.out S.B (S.xs s) (S.ys s) (fun p q => if p = i ∧ q = z then t else val ⟨true, l.w⟩ p q) (fun p => val ⟨true, l.bias⟩ p 0) := by
      funext t
      rw [error_linear S l hl, sf, sf, gx, gy]
      congr 1
      · funext p q; simp [setAt, gv]
      · funext p; simp [setAt, gv, hnd.symm]
    rw [e, gv] at d1
    rw [d2, gv, d1.unique (deriv_weight S.n l.out S.B (S.xs s) (S.ys s) (val ⟨true, l.w⟩) (fun p => val ⟨true, l.bias⟩ p 0) hi hz)]
    ring
  · intro i hi
    obtain ⟨D, d1, d2⟩ := h.moved l.bias (by rw [hp]; simp) i 0 (by unfold IsEntry; rw [h3]; exact ⟨hi, by simp [leafSize]⟩)
    have e : (fun t => S.error (setAt (S.given s val) l.bias i 0 t)) = fun t =>
        Spec.linError S.n l.out S.B (S.xs s) (S.ys s) (val ⟨true, l.w⟩) (fun p => if p = i then t else val ⟨true, l.bias⟩ p 0) := by
      funext t
      rw [error_linear S l hl, sf, sf, gx, gy]
      congr 1
      · funext p q; simp [setAt, gv, hnd]
      · funext p; simp [setAt, gv]
    rw [e, gv] at d1
    rw [d2, gv, d1.unique (deriv_bias S.n l.out S.B (S.xs s) (S.ys s) (val ⟨true, l.w⟩) (fun p => val ⟨true, l.bias⟩ p 0) hi)]
    ring

/-- One call of `train` on a linear model is one step of least squares. -/
theorem train_linear (env : Env ℝ) (hm : ∀ n, env.fits n = true) (hz : env.zero = 0) (on : Bool) (lr : ℝ) (S : Setup) (hS : S.Fits shp)
    (l : NetLayer) (hl : S.Linear l) (ρ : Backprop.Leaf → Tensor ℝ) (hρ : LeavesHold ρ shp val) (e : Term)
    (he : gdError S.ls (.leaf ⟨false, S.x⟩) (.leaf ⟨false, S.y⟩) = .ok e) (vs : List Nat) (hvs : Trains vs e) (s : List ℝ × List ℝ) (hs : Sized S s) :
    ∃ ρ' val', train env on lr e S.x S.y vs ρ s = .ok ρ' ∧ LeavesHold ρ' shp val' ∧
      LinStep S.n l.out S.B (S.xs s) (S.ys s) lr (val ⟨true, l.w⟩) (fun i => val ⟨true, l.bias⟩ i 0) (val' ⟨true, l.w⟩) (fun i => val' ⟨true, l.bias⟩ i 0) := by
  obtain ⟨ρ', val', a, b, c⟩ := train_one env hm hz on lr S hS ρ hρ e he vs hvs s hs
  exact ⟨ρ', val', a, b, step_linear S hS l hl s lr c⟩

/-- One call of `train` with a learning rate of at most one over twice the size of the inputs never raises the error of
the sample it is trained on. -/
theorem c89_monotone (env : Env ℝ) (hm : ∀ n, env.fits n = true) (hz : env.zero = 0) (on : Bool) (lr : ℝ) (S : Setup) (hS : S.Fits shp)
    (l : NetLayer) (hl : S.Linear l) (ρ : Backprop.Leaf → Tensor ℝ) (hρ : LeavesHold ρ shp val) (e : Term)
    (he : gdError S.ls (.leaf ⟨false, S.x⟩) (.leaf ⟨false, S.y⟩) = .ok e) (vs : List Nat) (hvs : Trains vs e) (s : List ℝ × List ℝ) (hs : Sized S s)
    (h0 : 0 < lr) (hF : 2 * lr * inputSize S.n S.B (S.xs s) ≤ 1) :
    ∃ ρ' val', train env on lr e S.x S.y vs ρ s = .ok ρ' ∧ LeavesHold ρ' shp val' ∧ S.linError l s val' ≤ S.linError l s val := by
  obtain ⟨ρ', val', a, b, c⟩ := train_linear env hm hz on lr S hS l hl ρ hρ e he vs hvs s hs
  refine ⟨ρ', val', a, b, ?_⟩
  have h := c.weigh h0.le hF (val ⟨true, l.w⟩) (fun i => val ⟨true, l.bias⟩ i 0)
  rw [modelDist_self] at h
  have h2 := modelDist_nonneg S.n l.out (val' ⟨true, l.w⟩) (val ⟨true, l.w⟩) (fun i => val' ⟨true, l.bias⟩ i 0) (fun i => val ⟨true, l.bias⟩ i 0)
  unfold Setup.linError
  have : 2 * lr * Spec.linError S.n l.out S.B (S.xs s) (S.ys s) (val' ⟨true, l.w⟩) (fun i => val' ⟨true, l.bias⟩ i 0) ≤
      2 * lr * Spec.linError S.n l.out S.B (S.xs s) (S.ys s) (val ⟨true, l.w⟩) (fun i => val ⟨true, l.bias⟩ i 0) := by linarith
  exact le_of_mul_le_mul_left this (by linarith)

/-- After `k` calls of `train` on the same sample the error is at most that of any other linear model, plus the squared
distance of that model from the first one over `2 * lr * k`. -/
theorem c89_rate (env : Env ℝ) (hm : ∀ n, env.fits n = true) (hz : env.zero = 0) (on : Bool) (lr : ℝ) (S : Setup) (hS : S.Fits shp)
    (l : NetLayer) (hl : S.Linear l) (e : Term)
    (he : gdError S.ls (.leaf ⟨false, S.x⟩) (.leaf ⟨false, S.y⟩) = .ok e) (vs : List Nat) (hvs : Trains vs e) (s : List ℝ × List ℝ) (hs : Sized S s)
    (h0 : 0 < lr) (hF : 2 * lr * inputSize S.n S.B (S.xs s) ≤ 1) : ∀ (k : Nat) (ρ : Backprop.Leaf → Tensor ℝ) (val : Backprop.Leaf → Nat → Nat → ℝ),
    LeavesHold ρ shp val → ∃ ρ' val', trainMany env on lr e S.x S.y vs (List.replicate k s) ρ = .ok ρ' ∧ LeavesHold ρ' shp val' ∧
      S.linError l s val' ≤ S.linError l s val ∧
      ∀ W b, 2 * lr * k * S.linError l s val' + modelDist S.n l.out (val' ⟨true, l.w⟩) (fun i => val' ⟨true, l.bias⟩ i 0) W b ≤
        2 * lr * k * Spec.linError S.n l.out S.B (S.xs s) (S.ys s) W b + modelDist S.n l.out (val ⟨true, l.w⟩) (fun i => val ⟨true, l.bias⟩ i 0) W b := by
  intro k
  induction k with
  | zero => intro ρ val hρ; exact ⟨ρ, val, rfl, hρ, le_refl _, fun W b => by simp⟩
  | succ k ih =>
    intro ρ val hρ
    obtain ⟨ρ₁, val₁, a, b, c⟩ := train_linear env hm hz on lr S hS l hl ρ hρ e he vs hvs s hs
    obtain ⟨ρ₂, val₂, a2, b2, hmono, hall⟩ := ih ρ₁ val₁ b
    have hmono1 : S.linError l s val₁ ≤ S.linError l s val := by
      have h := c.weigh h0.le hF (val ⟨true, l.w⟩) (fun i => val ⟨true, l.bias⟩ i 0)
      rw [modelDist_self] at h
      have h2 := modelDist_nonneg S.n l.out (val₁ ⟨true, l.w⟩) (val ⟨true, l.w⟩) (fun i => val₁ ⟨true, l.bias⟩ i 0) (fun i => val ⟨true, l.bias⟩ i 0)
      refine le_of_mul_le_mul_left (a := 2 * lr) ?_ (by linarith)
      unfold Setup.linError
      linarith
    refine ⟨ρ₂, val₂, ?_, b2, hmono.trans hmono1, fun W b => ?_⟩
    · rw [List.replicate_succ, trainMany, a, Outcome.ok_bind, a2]
    · have h1 := hall W b
      have h2 := c.weigh h0.le hF W b
      have h3 : 2 * lr * S.linError l s val₂ ≤ 2 * lr * Spec.linError S.n l.out S.B (S.xs s) (S.ys s) (val₁ ⟨true, l.w⟩) (fun i => val₁ ⟨true, l.bias⟩ i 0) :=
        mul_le_mul_of_nonneg_left hmono (by linarith)
      push_cast
      linarith

/-- Trained on the same sample again and again the network comes as close as wanted to the least squares solution. -/
theorem c89_converges (env : Env ℝ) (hm : ∀ n, env.fits n = true) (hz : env.zero = 0) (on : Bool) (lr : ℝ) (S : Setup) (hS : S.Fits shp)
    (l : NetLayer) (hl : S.Linear l) (ρ : Backprop.Leaf → Tensor ℝ) (hρ : LeavesHold ρ shp val) (e : Term)
    (he : gdError S.ls (.leaf ⟨false, S.x⟩) (.leaf ⟨false, S.y⟩) = .ok e) (vs : List Nat) (hvs : Trains vs e) (s : List ℝ × List ℝ) (hs : Sized S s)
    (h0 : 0 < lr) (hF : 2 * lr * inputSize S.n S.B (S.xs s) ≤ 1) (ε : ℝ) (hε : 0 < ε) :
    ∃ K, ∀ k ≥ K, ∃ ρ' val', trainMany env on lr e S.x S.y vs (List.replicate k s) ρ = .ok ρ' ∧ LeavesHold ρ' shp val' ∧
      ∀ W b, S.linError l s val' ≤ Spec.linError S.n l.out S.B (S.xs s) (S.ys s) W b + ε := by
  set P : Set ℝ := {t | ∃ W b, t = Spec.linError S.n l.out S.B (S.xs s) (S.ys s) W b} with hP
  have hbdd : BddBelow P := ⟨0, by rintro t ⟨W, b, rfl⟩; exact linError_nonneg _ _ _ _ _ _ _⟩
  have hne : P.Nonempty := ⟨_, fun _ _ => 0, fun _ => 0, rfl⟩
  obtain ⟨t, ⟨W, b, rfl⟩, ht⟩ := exists_lt_of_csInf_lt hne (show sInf P < sInf P + ε / 2 by linarith)
  set D := modelDist S.n l.out (val ⟨true, l.w⟩) (fun i => val ⟨true, l.bias⟩ i 0) W b with hD
  obtain ⟨K, hK⟩ := exists_nat_gt (D / (lr * ε))
  refine ⟨K + 1, fun k hk => ?_⟩
  obtain ⟨ρ', val', a, c, _, h⟩ := c89_rate env hm hz on lr S hS l hl e he vs hvs s hs h0 hF k ρ val hρ
  refine ⟨ρ', val', a, c, fun W' b' => ?_⟩
  have h1 := h W b
  have h2 := modelDist_nonneg S.n l.out (val' ⟨true, l.w⟩) W (fun i => val' ⟨true, l.bias⟩ i 0) b
  have h3 : sInf P ≤ Spec.linError S.n l.out S.B (S.xs s) (S.ys s) W' b' := csInf_le hbdd ⟨W', b', rfl⟩
  have hkK : (K : ℝ) + 1 ≤ k := by exact_mod_cast hk
  have hlε : 0 < lr * ε := mul_pos h0 hε
  have h4 : D < k * (lr * ε) := by
    have : D < K * (lr * ε) := (div_lt_iff₀ hlε).1 hK
    nlinarith
  have hkpos : 0 < 2 * lr * k := by
    have : (0 : ℝ) < k := by have := Nat.cast_nonneg (α := ℝ) K; linarith
    positivity
  have h5 : 2 * lr * k * S.linError l s val' ≤ 2 * lr * k * (Spec.linError S.n l.out S.B (S.xs s) (S.ys s) W b + ε / 2) := by nlinarith
  have h6 := le_of_mul_le_mul_left h5 hkpos
  linarith

/-- With batches of one, every call of `train` multiplies the error by the same factor, whatever the learning rate. -/
theorem c89_single (env : Env ℝ) (hm : ∀ n, env.fits n = true) (hz : env.zero = 0) (on : Bool) (lr : ℝ) (S : Setup) (hS : S.Fits shp) (hB : S.B = 1)
    (l : NetLayer) (hl : S.Linear l) (e : Term)
    (he : gdError S.ls (.leaf ⟨false, S.x⟩) (.leaf ⟨false, S.y⟩) = .ok e) (vs : List Nat) (hvs : Trains vs e) (s : List ℝ × List ℝ) (hs : Sized S s) :
    ∀ (k : Nat) (ρ : Backprop.Leaf → Tensor ℝ) (val : Backprop.Leaf → Nat → Nat → ℝ), LeavesHold ρ shp val →
    ∃ ρ' val', trainMany env on lr e S.x S.y vs (List.replicate k s) ρ = .ok ρ' ∧ LeavesHold ρ' shp val' ∧
      S.linError l s val' = ((1 - 2 * lr * (1 + ∑ z ∈ range S.n, s.1.getD z 0 ^ 2)) ^ 2) ^ k * S.linError l s val := by
  intro k
  induction k with
  | zero => intro ρ val hρ; exact ⟨ρ, val, rfl, hρ, by simp⟩
  | succ k ih =>
    intro ρ val hρ
    obtain ⟨ρ₁, val₁, a, b, c⟩ := train_linear env hm hz on lr S hS l hl ρ hρ e he vs hvs s hs
    obtain ⟨ρ₂, val₂, a2, b2, h⟩ := ih ρ₁ val₁ b
    refine ⟨ρ₂, val₂, ?_, b2, ?_⟩
    · rw [List.replicate_succ, trainMany, a, Outcome.ok_bind, a2]
    · rw [h, pow_succ (_ ^ 2) k, mul_assoc (((1 - 2 * lr * _) ^ 2) ^ k)]
      congr 1
      rw [hB] at c
      unfold Setup.linError Spec.linError
      rw [hB, mul_sum]
      refine sum_congr rfl fun i hi => ?_
      rw [sum_range_one, sum_range_one]
      have hi := mem_range.1 hi
      have e1 : ∑ z ∈ range S.n, S.xs s z 0 * val₁ ⟨true, l.w⟩ i z = (∑ z ∈ range S.n, S.xs s z 0 * val ⟨true, l.w⟩ i z) +
          2 * lr * (∑ z ∈ range S.n, S.xs s z 0 ^ 2) * shortfall S.n (S.xs s) (S.ys s) (val ⟨true, l.w⟩) (fun i => val ⟨true, l.bias⟩ i 0) i 0 := by
        rw [mul_sum, sum_mul, ← sum_add_distrib]
        refine sum_congr rfl fun z hz => ?_
        rw [c.weight i hi z (mem_range.1 hz), sum_range_one]
        ring
      have e2 := c.bias i hi
      rw [sum_range_one] at e2
      have e3 : ∑ z ∈ range S.n, s.1.getD z 0 ^ 2 = ∑ z ∈ range S.n, S.xs s z 0 ^ 2 := by simp [Setup.xs]
      rw [e3, ← mul_pow]
      congr 1
      rw [shortfall, e1]
      rw [e2]
      simp only [shortfall]
      ring

/-- A learning rate that is too large: the error grows beyond all bounds, unless the network is already perfect. -/
theorem c89_diverges (env : Env ℝ) (hm : ∀ n, env.fits n = true) (hz : env.zero = 0) (on : Bool) (lr : ℝ) (S : Setup) (hS : S.Fits shp) (hB : S.B = 1)
    (l : NetLayer) (hl : S.Linear l) (ρ : Backprop.Leaf → Tensor ℝ) (hρ : LeavesHold ρ shp val) (e : Term)
    (he : gdError S.ls (.leaf ⟨false, S.x⟩) (.leaf ⟨false, S.y⟩) = .ok e) (vs : List Nat) (hvs : Trains vs e) (s : List ℝ × List ℝ) (hs : Sized S s)
    (hlr : 1 < lr * (1 + ∑ z ∈ range S.n, s.1.getD z 0 ^ 2)) (h0 : S.linError l s val ≠ 0) (M : ℝ) :
    ∃ K, ∀ k ≥ K, ∃ ρ' val', trainMany env on lr e S.x S.y vs (List.replicate k s) ρ = .ok ρ' ∧ LeavesHold ρ' shp val' ∧ M < S.linError l s val' := by
  have hpos : 0 < S.linError l s val := lt_of_le_of_ne (linError_nonneg _ _ _ _ _ _ _) (Ne.symm h0)
  set q := (1 - 2 * lr * (1 + ∑ z ∈ range S.n, s.1.getD z 0 ^ 2)) ^ 2 with hq
  have hq1 : 1 < q := by rw [hq]; nlinarith
  obtain ⟨K, hK⟩ := pow_unbounded_of_one_lt (M / S.linError l s val) hq1
  refine ⟨K, fun k hk => ?_⟩
  obtain ⟨ρ', val', a, b, c⟩ := c89_single env hm hz on lr S hS hB l hl e he vs hvs s hs k ρ val hρ
  refine ⟨ρ', val', a, b, ?_⟩
  rw [c, ← hq, ← div_lt_iff₀ hpos]
  exact hK.trans_le (pow_le_pow_right₀ hq1.le hk)

/-- Three samples with two inputs and one output: the hypotheses of the theorems on convergence can be met. -/
example : ∃ (S : Setup) (l : NetLayer) (shp : Backprop.Leaf → List Nat) (ρ : Backprop.Leaf → Tensor ℝ) (val : Backprop.Leaf → Nat → Nat → ℝ) (e : Term)
    (vs : List Nat) (s : List ℝ × List ℝ) (lr : ℝ), S.Fits shp ∧ S.Linear l ∧ S.B = 3 ∧ LeavesHold ρ shp val ∧
    gdError S.ls (.leaf ⟨false, S.x⟩) (.leaf ⟨false, S.y⟩) = .ok e ∧ Trains vs e ∧ Sized S s ∧ 0 < lr ∧ 2 * lr * inputSize S.n S.B (S.xs s) ≤ 1 ∧
    0 < S.linError l s val := by
  let l : NetLayer := ⟨0, 1, 1, .identity⟩
  let shp : Backprop.Leaf → List Nat := fun l =>
    if l = ⟨false, 0⟩ then [2, 3] else if l = ⟨false, 1⟩ then [1, 3] else if l = ⟨true, 0⟩ then [1, 2] else [1]
  have hs : ∀ l, Full (shp l) := by
    intro l
    simp only [shp]
    split_ifs <;> exact ⟨by simp, by simp⟩
  choose ρ hρ using fun l => full_tensor (shp l) (hs l) (fun c => (c.getD 0 0 : ℝ) + 2 * c.getD 1 0)
  let S : Setup := ⟨[l], 0, 1, 2, 3⟩
  have hS : S.Fits shp := ⟨.inl rfl, .inl rfl, ⟨by decide, by decide⟩, by decide, ⟨by decide, rfl, rfl, trivial⟩, by decide⟩
  obtain ⟨e, he, ht⟩ := c65_trained S hS
  refine ⟨S, l, shp, ρ, fun _ i j => (i : ℝ) + 2 * j, e, [1, 0], ([1, 2, 3, 4, 5, 6], [0, 1, 2]), 1 / 200, hS, ⟨rfl, rfl⟩, rfl, hρ, he, ?_, ⟨rfl, rfl⟩, by norm_num, ?_, ?_⟩
  · exact (ht _).2 (by decide)
  · simp only [S, inputSize, Setup.xs, sum_range_succ, sum_range_zero]
    norm_num [List.getD]
  · simp only [S, l, Setup.linError, Spec.linError, shortfall, Setup.xs, Setup.ys, sum_range_succ, sum_range_zero, netOut]
    norm_num [List.getD]

/-- A unit with one input: with a learning rate of one tenth the error of the sample `1 ↦ 3` falls by the factor `9 / 25`
with every call, with a learning rate of two it grows by the factor 49. -/
example : (1 - 2 * (1 / 10) * (1 + ∑ z ∈ range 1, ([1] : List ℝ).getD z 0 ^ 2)) ^ 2 = 9 / 25 ∧
    (1 - 2 * 2 * (1 + ∑ z ∈ range 1, ([1] : List ℝ).getD z 0 ^ 2)) ^ 2 = (49 : ℝ) ∧ (1 : ℝ) < 2 * (1 + ∑ z ∈ range 1, ([1] : List ℝ).getD z 0 ^ 2) := by
  norm_num [List.getD]

end Verif.Props
