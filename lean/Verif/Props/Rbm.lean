import Verif.Lemmas.Rbm
import Mathlib.Algebra.BigOperators.Ring.Finset
/-!
# C66: restricted Boltzmann machines
-/
namespace Verif.Props
open Spec Backprop Finset
open scoped Classical
variable {shp : Backprop.Leaf → List Nat} {val : Backprop.Leaf → Nat → Nat → ℝ}
variable {r : RbmVars} {n m B x c : Nat}

/-! ### The Boltzmann distribution -/

theorem exp_bits {k : Nat} (a : Fin k → ℝ) (t : Fin k → Finset Bool) :
    ∑ h ∈ Fintype.piFinset t, Real.exp (∑ i, (if h i then a i else 0)) = ∏ i, ∑ b ∈ t i, Real.exp (if b then a i else 0) := by
  rw [Finset.prod_univ_sum]
  exact sum_congr rfl (fun h _ => Real.exp_sum _ _)

theorem bits_eq (k : Nat) : bits k = Fintype.piFinset (fun _ => (Finset.univ : Finset Bool)) := by
  unfold bits; ext h; simp only [mem_univ, Fintype.mem_piFinset, implies_true]

theorem sum_bits {k : Nat} (a : Fin k → ℝ) : ∑ h ∈ bits k, Real.exp (∑ i, (if h i then a i else 0)) = ∏ i, (1 + Real.exp (a i)) := by
  rw [bits_eq, exp_bits]
  refine prod_congr rfl (fun i _ => ?_)
  simp [add_comm]

theorem sum_bits_on {k : Nat} (a : Fin k → ℝ) (i : Fin k) :
    ∑ h ∈ (bits k).filter (fun h => ofBits h i = 1), Real.exp (∑ i, (if h i then a i else 0)) =
      logistic (a i) * ∏ i, (1 + Real.exp (a i)) := by
  have h1 : (bits k).filter (fun h => ofBits h i = 1) = Fintype.piFinset (fun j => if j = i then {true} else (Finset.univ : Finset Bool)) := by
    ext h
    simp only [bits, mem_filter, mem_univ, true_and, Fintype.mem_piFinset, ofBits, i.2, dif_pos]
    constructor
    · intro hi j
      by_cases hj : j = i
      · subst hj
        by_contra hh
        simp at hh
        rw [hh] at hi
        simp at hi
      · simp [hj]
    · intro hj
      have := hj i
      simp at this
      simp [this]
  rw [h1, exp_bits, ← mul_prod_erase univ _ (mem_univ i), ← mul_prod_erase univ (fun i => 1 + Real.exp (a i)) (mem_univ i)]
  have h2 : ∏ x ∈ univ.erase i, (∑ b ∈ (if x = i then {true} else (Finset.univ : Finset Bool)), Real.exp (if b then a x else 0)) =
      ∏ x ∈ univ.erase i, (1 + Real.exp (a x)) := by
    refine prod_congr rfl (fun j hj => ?_)
    rw [if_neg (ne_of_mem_erase hj)]
    simp [add_comm]
  rw [h2, ← mul_assoc, ← Rb.exp_div]
  congr 1
  have := Real.exp_pos (a i)
  simp
  field_simp

theorem ratio_bits {k : Nat} (a : Fin k → ℝ) (C : ℝ) (i : Fin k) :
    (∑ h ∈ (bits k).filter (fun h => ofBits h i = 1), Real.exp ((∑ i, (if h i then a i else 0)) + C)) /
      ∑ h ∈ bits k, Real.exp ((∑ i, (if h i then a i else 0)) + C) = logistic (a i) := by
  simp only [Real.exp_add, ← sum_mul]
  rw [sum_bits_on, sum_bits]
  have h1 : ∏ i, (1 + Real.exp (a i)) ≠ 0 := prod_ne_zero_iff.2 (fun i _ => by positivity)
  have h2 := (Real.exp_pos C).ne'
  field_simp

theorem energy_hidden (M : Boltzmann) (v : Nat → ℝ) (h : Fin M.m → Bool) :
    -M.energy v (ofBits h) = (∑ i, (if h i then (∑ z ∈ range M.n, v z * M.W i z + M.hb i) else 0)) + ∑ z ∈ range M.n, M.vb z * v z := by
  unfold Boltzmann.energy
  rw [sum_range, sum_range (n := M.m)]
  simp only [ofBits, Fin.is_lt, dif_pos, Fin.eta]
  have h1 : ∀ i : Fin M.m, (if h i then (∑ z ∈ range M.n, v z * M.W i z + M.hb i) else 0) =
      ∑ z ∈ range M.n, (if h i then 1 else 0) * M.W i z * v z + M.hb i * (if h i then 1 else 0) := by
    intro i
    split_ifs
    · rw [mul_one]; congr 1; exact sum_congr rfl (fun z _ => by ring)
    · simp
  simp only [h1]
  rw [sum_add_distrib]
  ring

theorem energy_visible (M : Boltzmann) (v : Fin M.n → Bool) (h : Nat → ℝ) :
    -M.energy (ofBits v) h = (∑ z, (if v z then (∑ i ∈ range M.m, h i * M.W i z + M.vb z) else 0)) + ∑ i ∈ range M.m, M.hb i * h i := by
  unfold Boltzmann.energy
  rw [sum_comm, sum_range (n := M.n), sum_range (n := M.n)]
  simp only [ofBits, Fin.is_lt, dif_pos, Fin.eta]
  have h1 : ∀ z : Fin M.n, (if v z then (∑ i ∈ range M.m, h i * M.W i z + M.vb z) else 0) =
      ∑ i ∈ range M.m, h i * M.W i z * (if v z then 1 else 0) + M.vb z * (if v z then 1 else 0) := by
    intro i
    split_ifs <;> simp
  simp only [h1]
  rw [sum_add_distrib]
  ring

/-- A hidden unit is on with the logistic function of its input. -/
theorem hiddenOn_eq (M : Boltzmann) (v : Nat → ℝ) (i : Nat) (hi : i < M.m) :
    M.hiddenOn v i = logistic (∑ z ∈ range M.n, v z * M.W i z + M.hb i) := by
  unfold Boltzmann.hiddenOn
  simp only [energy_hidden]
  exact ratio_bits (fun i : Fin M.m => ∑ z ∈ range M.n, v z * M.W i z + M.hb i) _ ⟨i, hi⟩

theorem visibleOn_eq (M : Boltzmann) (h : Nat → ℝ) (z : Nat) (hz : z < M.n) :
    M.visibleOn h z = logistic (∑ i ∈ range M.m, h i * M.W i z + M.vb z) := by
  unfold Boltzmann.visibleOn
  simp only [energy_visible]
  exact ratio_bits (fun z : Fin M.n => ∑ i ∈ range M.m, h i * M.W i z + M.vb z) _ ⟨z, hz⟩

theorem logistic_mem (y : ℝ) : 0 < logistic y ∧ logistic y < 1 := by
  unfold logistic
  have := Real.exp_pos (-y)
  exact ⟨by positivity, by rw [div_lt_one (by positivity)]; linarith⟩

/-- The free energy is what the energy and the hidden units sum to: the weight of a visible vector is the sum of the
weights of its pairs with all hidden vectors. -/
theorem c66_free_energy (M : Boltzmann) (v : Nat → ℝ) :
    Real.exp (-M.freeEnergy v) = ∑ h ∈ bits M.m, Real.exp (-M.energy v (ofBits h)) := by
  simp only [energy_hidden, Real.exp_add, ← sum_mul]
  rw [sum_bits]
  unfold Boltzmann.freeEnergy
  rw [neg_sub, sub_neg_eq_add, add_comm, Real.exp_add, Real.exp_sum, prod_range]
  congr 1
  exact prod_congr rfl (fun i _ => Real.exp_log (by positivity))

/-! ### The nodes -/

/-- `prop_up`: the probabilities of the hidden units given the visible vectors, each strictly between zero and one (so
sampling from them does not violate the assertion of `binomial_sample`). -/
theorem c66_prop_up (env : Env ℝ) (hm : ∀ n, env.fits n = true) (on : Bool) (ρ : Backprop.Leaf → Tensor ℝ) (hρ : LeavesHold ρ shp val)
    (h : RbmFits r n m B x c shp) :
    ∃ e t, rbmUp r (.leaf ⟨false, x⟩) = .ok e ∧ eval env on ρ e = .ok t ∧
      Batch t m B (fun i j => (machine r n m val).hiddenOn (fun z => val ⟨false, x⟩ z j) i) ∧
      ∀ i < m, ∀ j, 0 < (machine r n m val).hiddenOn (fun z => val ⟨false, x⟩ z j) i ∧
        (machine r n m val).hiddenOn (fun z => val ⟨false, x⟩ z j) i < 1 := by
  obtain ⟨h1, h2, h3⟩ := (Rb.Ok.of h).1.Z (val := val)
  obtain ⟨e, a1, a2, a3, a4, _⟩ := den_act (v := 0) (z := Rb.Z r (.leaf ⟨false, x⟩)) trivial h1 .sigmoid
  obtain ⟨t, e1, e2⟩ := c60_eval env hm on ρ hρ e a2
  refine ⟨e, t, a1, e1, ?_, fun i hi j => ?_⟩
  · rw [a3, h2] at e2
    refine batch_congr e2 (fun i j hi hj => ?_)
    rw [a4, h3, hiddenOn_eq _ _ _ hi]
    rfl
  · rw [hiddenOn_eq _ _ _ hi]
    exact logistic_mem _

/-- `prop_down`: the probabilities of the visible units given the hidden vectors in `y`. -/
theorem c66_prop_down (env : Env ℝ) (hm : ∀ n, env.fits n = true) (on : Bool) (ρ : Backprop.Leaf → Tensor ℝ) (hρ : LeavesHold ρ shp val)
    (h : RbmFits r n m B x c shp) (y : Nat) (hy : shp ⟨false, y⟩ = [m, B] ∨ (B = 1 ∧ shp ⟨false, y⟩ = [m])) :
    ∃ e t, rbmDown r (.leaf ⟨false, y⟩) = .ok e ∧ eval env on ρ e = .ok t ∧
      Batch t n B (fun z j => (machine r n m val).visibleOn (fun i => val ⟨false, y⟩ i j) z) ∧
      ∀ z < n, ∀ j, 0 < (machine r n m val).visibleOn (fun i => val ⟨false, y⟩ i j) z ∧
        (machine r n m val).visibleOn (fun i => val ⟨false, y⟩ i j) z < 1 := by
  let Z : Term := .axial (.mm false true (.leaf ⟨false, y⟩) (.tr (.leaf ⟨true, r.w⟩))) (.leaf ⟨true, r.vb⟩)
  have hd : dims shp (.leaf ⟨false, y⟩) = (m, B) := by
    rcases hy with h | ⟨hB, h⟩ <;> simp only [dims, h, leafSize]
    rw [hB]
  have hM : dims shp (.mm false true (.leaf ⟨false, y⟩) (.tr (.leaf ⟨true, r.w⟩))) = (n, B) := by
    show (_, (dims shp (.leaf ⟨false, y⟩)).2) = _
    rw [hd]; simp [dims, h.weight, leafSize]
  have h1 : Typed shp Z := by
    refine ⟨⟨⟨m, B, h.pos.2.1, h.pos.2.2, hy⟩, ⟨m, n, h.pos.2.1, h.pos.1, .inl h.weight⟩, ?_⟩, trivial, _, rfl, ?_⟩
    · rw [hd]; simp [dims, h.weight, leafSize]
    · rw [hM, h.vbias]
  have h3 : ∀ z j, den shp val Z z j = ∑ i ∈ range m, val ⟨false, y⟩ i j * val ⟨true, r.w⟩ i z + val ⟨true, r.vb⟩ z 0 := by
    intro z j
    show ∑ i ∈ range (dims shp (.leaf ⟨false, y⟩)).1, val ⟨false, y⟩ i j * val ⟨true, r.w⟩ i z + val ⟨true, r.vb⟩ z 0 = _
    rw [hd]
  obtain ⟨e, a1, a2, a3, a4, _⟩ := den_act (v := 0) (z := Z) trivial h1 .sigmoid
  obtain ⟨t, e1, e2⟩ := c60_eval env hm on ρ hρ e a2
  refine ⟨e, t, a1, e1, ?_, fun i hi j => ?_⟩
  · rw [a3, show dims shp Z = (n, B) from hM] at e2
    refine batch_congr e2 (fun i j hi hj => ?_)
    rw [a4, h3, visibleOn_eq _ _ _ hi]
    rfl
  · rw [visibleOn_eq _ _ _ hi]
    exact logistic_mem _

/-- The cost node of `train`: mean free energy of the data minus mean free energy of the chain. -/
theorem c66_cost (env : Env ℝ) (hm : ∀ n, env.fits n = true) (on : Bool) (ρ : Backprop.Leaf → Tensor ℝ) (hρ : LeavesHold ρ shp val)
    (h : RbmFits r n m B x c shp) :
    ∃ e t, rbmCost r (.leaf ⟨false, x⟩) (.leaf ⟨false, c⟩) = .ok e ∧ eval env on ρ e = .ok t ∧
      Batch t 1 1 (fun _ _ => cdCost r n m B x c val val) := by
  obtain ⟨o1, o2⟩ := Rb.Ok.of h
  obtain ⟨p1, p2, p3⟩ := o1.A (val := val)
  obtain ⟨q1, q2, q3⟩ := o2.A (val := val)
  have ht : Typed shp (.bin .sub (Rb.A r (.leaf ⟨false, x⟩)) (Rb.A r (.leaf ⟨false, c⟩))) := ⟨p1, .inl q1, .inl (p2.trans q2.symm)⟩
  obtain ⟨t, e1, e2⟩ := c60_eval env hm on ρ hρ _ ht
  refine ⟨_, t, Rb.cost_eq r h.other, e1, ?_⟩
  rw [dims_bin (p2.trans q2.symm), p2] at e2
  refine batch_congr e2 (fun i j hi hj => ?_)
  obtain rfl : i = 0 := by omega
  obtain rfl : j = 0 := by omega
  rw [den_bin (p2.trans q2.symm), p3, q3]
  rfl

/-- What `derive` builds for the three variables. -/
theorem rbm_derive (h : RbmFits r n m B x c shp) (e : Term) (he : rbmCost r (.leaf ⟨false, x⟩) (.leaf ⟨false, c⟩) = .ok e) :
    (∃ d, derive r.w e = .ok d ∧ (∀ a, d ≠ .const a) ∧ Is shp val d m n (fun p q =>
      -(∑ j ∈ range B, val ⟨false, x⟩ q j * logistic (Rb.zz r val n (val ⟨false, x⟩) p j)) / B - -(∑ j ∈ range B, val ⟨false, c⟩ q j * logistic (Rb.zz r val n (val ⟨false, c⟩) p j)) / B)) ∧
    (∃ d, derive r.hb e = .ok d ∧ (∀ a, d ≠ .const a) ∧ Is shp val d m 1 (fun p _ =>
      -(∑ j ∈ range B, logistic (Rb.zz r val n (val ⟨false, x⟩) p j)) / B - -(∑ j ∈ range B, logistic (Rb.zz r val n (val ⟨false, c⟩) p j)) / B)) ∧
    ∃ d, derive r.vb e = .ok d ∧ (∀ a, d ≠ .const a) ∧ Is shp val d n 1 (fun p _ =>
      -(∑ j ∈ range B, val ⟨false, x⟩ p j) / B - -(∑ j ∈ range B, val ⟨false, c⟩ p j) / B) := by
  obtain ⟨o1, o2⟩ := Rb.Ok.of h
  obtain ⟨v1, v2, v3⟩ := h.vars
  rw [Rb.cost_eq r h.other] at he
  cases he
  refine ⟨⟨_, Rb.derive_W r v1 v2 h.other, by simp, ?_⟩, ⟨_, Rb.derive_H r v1 v3 h.other, by simp, ?_⟩, ⟨_, Rb.derive_V r v2 v3 h.other, by simp, ?_⟩⟩
  · obtain ⟨a1, a2, a3⟩ := o1.dW (val := val)
    obtain ⟨b1, b2, b3⟩ := o2.dW (val := val)
    exact Rb.is_diff a1 b1 a2 b2 (fun p q hp _ => a3 p q hp) (fun p q hp _ => b3 p q hp)
  · obtain ⟨a1, a2, a3⟩ := o1.dH (val := val)
    obtain ⟨b1, b2, b3⟩ := o2.dH (val := val)
    exact Rb.is_diff a1 b1 a2 b2 (fun p q hp _ => a3 p q hp) (fun p q hp _ => b3 p q hp)
  · obtain ⟨a1, a2, a3⟩ := o1.dV (val := val)
    obtain ⟨b1, b2, b3⟩ := o2.dV (val := val)
    exact Rb.is_diff a1 b1 a2 b2 a3 b3

/-- The gradients: for each of the three variables `derive` builds a node that evaluates, in the variable's size, to the
gradient of the cost, with the data and the end of the chain held constant. -/
theorem c66_gradient (env : Env ℝ) (hm : ∀ n, env.fits n = true) (on : Bool) (ρ : Backprop.Leaf → Tensor ℝ) (hρ : LeavesHold ρ shp val)
    (h : RbmFits r n m B x c shp) (e : Term) (he : rbmCost r (.leaf ⟨false, x⟩) (.leaf ⟨false, c⟩) = .ok e) (v : Nat) (hv : v = r.w ∨ v = r.hb ∨ v = r.vb) :
    ∃ d t G, derive v e = .ok d ∧ eval env on ρ d = .ok t ∧ Batch t (leafSize (shp ⟨true, v⟩)).1 (leafSize (shp ⟨true, v⟩)).2 G ∧
      ∀ p q, IsEntry shp v p q → HasDerivAt (fun s => cdCost r n m B x c (setAt val v p q s) val) (G p q) (val ⟨true, v⟩ p q) := by
  obtain ⟨⟨d, d1, d2, d3⟩, ⟨d', d1', d2', d3'⟩, ⟨d'', d1'', d2'', d3''⟩⟩ := rbm_derive (val := val) h e he
  obtain ⟨v1, v2, v3⟩ := h.vars
  rcases hv with rfl | rfl | rfl
  · obtain ⟨t, h7, _, h8⟩ := eval_is env hm on ρ hρ d3
    refine ⟨d, t, _, d1, h7, by rw [h.weight]; exact h8 d2, fun p q ⟨hp, hq⟩ => ?_⟩
    rw [h.weight] at hp hq
    exact (Rb.mean_W v1 v2 n m B p q hp hq x).fun_sub (Rb.mean_W v1 v2 n m B p q hp hq c)
  · obtain ⟨t, h7, _, h8⟩ := eval_is env hm on ρ hρ d3'
    refine ⟨d', t, _, d1', h7, by rw [h.hbias]; exact h8 d2', fun p q ⟨hp, hq⟩ => ?_⟩
    rw [h.hbias] at hp hq
    obtain rfl : q = 0 := by simp [leafSize] at hq; omega
    exact (Rb.mean_H v1 v3 n m B p hp x).fun_sub (Rb.mean_H v1 v3 n m B p hp c)
  · obtain ⟨t, h7, _, h8⟩ := eval_is env hm on ρ hρ d3''
    refine ⟨d'', t, _, d1'', h7, by rw [h.vbias]; exact h8 d2'', fun p q ⟨hp, hq⟩ => ?_⟩
    rw [h.vbias] at hp hq
    obtain rfl : q = 0 := by simp [leafSize] at hq; omega
    exact (Rb.mean_V v2 v3 n m B p hp x).fun_sub (Rb.mean_V v2 v3 n m B p hp c)

/-! ### Training -/

theorem mulL_const (d : Term) (lr : ℝ) (hd : ∀ c, d ≠ .const c) (hI : Typed shp d) :
    (lr = 0 ∧ mulL lr d = .const 0) ∨ ∀ c, mulL lr d ≠ .const c := by
  rw [mulL_nc lr hd]
  by_cases h0 : 0 = lr
  · exact .inl ⟨h0.symm, by rw [if_pos h0]⟩
  · refine .inr fun c => ?_
    rw [if_neg h0]
    split_ifs
    · exact hd c
    · exact neg_nc hd hI c
    · simp

theorem rbm_update (env : Env ℝ) (hm : ∀ n, env.fits n = true) (hz : env.zero = 0) (on : Bool) (lr : ℝ) (ρ : Backprop.Leaf → Tensor ℝ)
    (hρ : LeavesHold ρ shp val) (d : Term) (G : Nat → Nat → ℝ) (hd : ∀ c, d ≠ .const c) (l : Backprop.Leaf) (hl : Typed shp (.leaf l))
    (hG : Is shp val d (leafSize (shp l)).1 (leafSize (shp l)).2 G) (t : Tensor ℝ)
    (ht : Holds t (shp l) (fun c => val l (c.getD 0 0) (c.getD 1 0))) :
    ∃ t', rbmUpdate env on lr ρ d t = .ok t' ∧ Holds t' (shp l) (fun c => val l (c.getD 0 0) (c.getD 1 0) - lr * G (c.getD 0 0) (c.getD 1 0)) := by
  have hT : Typed shp d := by
    rcases hG with ⟨c, h, _⟩ | h
    · exact absurd h (hd c)
    · exact h.1
  obtain ⟨hw, buf, hr, hlen, hb⟩ := batch_buf (leaf_batch hl ht)
  rcases mulL_const d lr hd hT with ⟨h0, h1⟩ | h1
  · refine ⟨t, ?_, ?_⟩
    · unfold rbmUpdate
      rw [h1]
      show (Verif.Leaf.assignSub env ⟨t, true, none⟩ (.const [0]) >>= fun l => .ok l.data) = _
      rw [Leaf.assignSub, c42_update_constant env _ true ⟨t, true, none⟩ buf [0] hw hr, if_pos ⟨rfl, by rw [hz]⟩]
      rfl
    · subst h0; simpa using ht
  · obtain ⟨s, h2, _, h3⟩ := eval_is env hm on ρ hρ (is_mulL lr hG)
    obtain ⟨hw', src, hr', hlen', hb'⟩ := batch_buf (h3 h1)
    refine ⟨⟨some (mapTwo (· - ·) buf src), t.alloc, t.allowed⟩, ?_, ?_⟩
    · unfold rbmUpdate
      rw [stepArg_nc env on ρ _ h1, h2]
      show (Verif.Leaf.assignSub env ⟨t, true, none⟩ (.node (some s)) >>= fun l => .ok l.data) = _
      rw [Leaf.assignSub, (c42_update_node env _ true ⟨t, true, none⟩ s buf src hw hr hw' hr').2, if_pos (by rw [hlen, hlen'])]
      rfl
    · have hget : ∀ i j, i < (leafSize (shp l)).1 → j < (leafSize (shp l)).2 →
          (mapTwo (· - ·) buf src)[i + (leafSize (shp l)).1 * j]? = some (val l i j - lr * G i j) := fun i j hi hj =>
        (mapTwo_getElem? (· - ·) buf src (by rw [hlen, hlen']) _ _ _ (hb i j hi hj) (hb' i j hi hj)).1
      have hll : (mapTwo (· - ·) buf src).length = buf.length := by
        rw [← zipWith_mapTwo]; simp [hlen, hlen']
      exact holds_leaf (f := fun i j => val l i j - lr * G i j) (t := ⟨some (mapTwo (· - ·) buf src), t.alloc, t.allowed⟩) hl ht.shape rfl
        (by rw [hll, hlen]) hget

theorem rbm_updates (env : Env ℝ) (hm : ∀ n, env.fits n = true) (hz : env.zero = 0) (on : Bool) (lr : ℝ) (ρ₀ : Backprop.Leaf → Tensor ℝ)
    (hρ : LeavesHold ρ₀ shp val) (e : Term) (G : Nat → Nat → Nat → ℝ) : ∀ (vs : List Nat) (ρ : Backprop.Leaf → Tensor ℝ), vs.Nodup →
    (∀ v ∈ vs, Typed shp (.leaf ⟨true, v⟩) ∧ ∃ d, derive v e = .ok d ∧ (∀ c, d ≠ .const c) ∧
      Is shp val d (leafSize (shp ⟨true, v⟩)).1 (leafSize (shp ⟨true, v⟩)).2 (G v)) →
    (∀ v ∈ vs, ρ ⟨true, v⟩ = ρ₀ ⟨true, v⟩) →
    ∃ ρ', rbmUpdates env on lr e ρ₀ vs ρ = .ok ρ' ∧ (∀ l, (∀ v ∈ vs, l ≠ ⟨true, v⟩) → ρ' l = ρ l) ∧
      ∀ v ∈ vs, Holds (ρ' ⟨true, v⟩) (shp ⟨true, v⟩)
        (fun c => val ⟨true, v⟩ (c.getD 0 0) (c.getD 1 0) - lr * G v (c.getD 0 0) (c.getD 1 0)) := by
  intro vs
  induction vs with
  | nil => intro ρ _ _ _; exact ⟨ρ, rfl, fun _ _ => rfl, fun v hv => absurd hv (by simp)⟩
  | cons v vs ih =>
    intro ρ hnd hd hsame
    obtain ⟨hv, hnd⟩ := List.nodup_cons.1 hnd
    obtain ⟨hty, d, h1, h2, h3⟩ := hd v (by simp)
    obtain ⟨t', h4, h5⟩ := rbm_update env hm hz on lr ρ₀ hρ d (G v) h2 ⟨true, v⟩ hty h3 (ρ ⟨true, v⟩) (by rw [hsame v (by simp)]; exact hρ _)
    have hne : ∀ u ∈ vs, (⟨true, u⟩ : Backprop.Leaf) ≠ ⟨true, v⟩ := by
      intro u hu h; injection h with _ h; exact hv (h ▸ hu)
    obtain ⟨ρ', h6, h7, h8⟩ := ih (put ρ ⟨true, v⟩ t') hnd (fun u hu => hd u (by simp [hu])) (fun u hu => by
      unfold put; rw [if_neg (hne u hu)]; exact hsame u (by simp [hu]))
    refine ⟨ρ', ?_, fun l hl => ?_, fun u hu => ?_⟩
    · rw [rbmUpdates, h1, Outcome.ok_bind, h4, Outcome.ok_bind, h6]
    · rw [h7 l (fun u hu => hl u (by simp [hu]))]
      unfold put; rw [if_neg (hl v (by simp))]
    · rcases List.mem_cons.1 hu with rfl | hu
      · rw [h7 _ (fun w hw h => by injection h with _ h; exact hv (h ▸ hw))]
        unfold put; rw [if_pos rfl]; exact h5
      · exact h8 u hu

/-- A training step is one step of contrastive divergence: it succeeds for every batch, and the weights and biases move
by `learning_rate` times the difference between the statistics of the data and those of the end of the chain, averaged
over the batch; the data and all other variables keep their values. -/
theorem c66_train (env : Env ℝ) (hm : ∀ n, env.fits n = true) (hz : env.zero = 0) (on : Bool) (lr : ℝ) (ρ : Backprop.Leaf → Tensor ℝ)
    (hρ : LeavesHold ρ shp val) (h : RbmFits r n m B x c shp) :
    ∃ ρ' val', rbmTrain env on lr r x c ρ = .ok ρ' ∧ LeavesHold ρ' shp val' ∧ CdStep r n m B x c lr val val' := by
  obtain ⟨e, he⟩ : ∃ e, rbmCost r (.leaf ⟨false, x⟩) (.leaf ⟨false, c⟩) = .ok e := ⟨_, Rb.cost_eq r h.other⟩
  obtain ⟨⟨d, d1, d2, d3⟩, ⟨d', d1', d2', d3'⟩, ⟨d'', d1'', d2'', d3''⟩⟩ := rbm_derive (val := val) h e he
  obtain ⟨v1, v2, v3⟩ := h.vars
  let G : Nat → Nat → Nat → ℝ := fun v p q =>
    if v = r.w then -(∑ j ∈ range B, val ⟨false, x⟩ q j * logistic (Rb.zz r val n (val ⟨false, x⟩) p j)) / B - -(∑ j ∈ range B, val ⟨false, c⟩ q j * logistic (Rb.zz r val n (val ⟨false, c⟩) p j)) / B
    else if v = r.hb then -(∑ j ∈ range B, logistic (Rb.zz r val n (val ⟨false, x⟩) p j)) / B - -(∑ j ∈ range B, logistic (Rb.zz r val n (val ⟨false, c⟩) p j)) / B
    else -(∑ j ∈ range B, val ⟨false, x⟩ p j) / B - -(∑ j ∈ range B, val ⟨false, c⟩ p j) / B
  have hcase : ∀ v ∈ [r.w, r.hb, r.vb], Typed shp (.leaf ⟨true, v⟩) ∧ ∃ d, derive v e = .ok d ∧ (∀ c, d ≠ .const c) ∧
      Is shp val d (leafSize (shp ⟨true, v⟩)).1 (leafSize (shp ⟨true, v⟩)).2 (G v) := by
    intro v hv
    simp only [List.mem_cons, List.not_mem_nil, or_false] at hv
    rcases hv with rfl | rfl | rfl
    · refine ⟨⟨m, n, h.pos.2.1, h.pos.1, .inl h.weight⟩, d, d1, d2, ?_⟩
      rw [h.weight]
      exact d3.congr (fun i j _ _ => by simp only [G, if_true])
    · refine ⟨⟨m, 1, h.pos.2.1, by decide, .inr ⟨rfl, h.hbias⟩⟩, d', d1', d2', ?_⟩
      rw [h.hbias]
      exact d3'.congr (fun i j _ _ => by simp only [G, if_neg v1.symm, if_true])
    · refine ⟨⟨n, 1, h.pos.1, by decide, .inr ⟨rfl, h.vbias⟩⟩, d'', d1'', d2'', ?_⟩
      rw [h.vbias]
      exact d3''.congr (fun i j _ _ => by simp only [G, if_neg v2.symm, if_neg v3.symm])
  obtain ⟨ρ', h1, h2, h3⟩ := rbm_updates env hm hz on lr ρ hρ e G [r.w, r.hb, r.vb] ρ (by simp [v1, v2, v3]) hcase (fun _ _ => rfl)
  refine ⟨ρ', fun l i j => if l = ⟨true, r.w⟩ ∨ l = ⟨true, r.hb⟩ ∨ l = ⟨true, r.vb⟩ then val l i j - lr * G l.id i j else val l i j, ?_, fun l => ?_, ?_⟩
  · unfold rbmTrain
    rw [he, Outcome.ok_bind, h1]
  · by_cases hl : l = ⟨true, r.w⟩ ∨ l = ⟨true, r.hb⟩ ∨ l = ⟨true, r.vb⟩
    · simp only [if_pos hl]
      rcases hl with rfl | rfl | rfl
      · exact h3 r.w (by simp)
      · exact h3 r.hb (by simp)
      · exact h3 r.vb (by simp)
    · simp only [if_neg hl]
      have : ρ' l = ρ l := h2 l (by
        intro v hv hh
        simp only [List.mem_cons, List.not_mem_nil, or_false] at hv
        refine hl ?_
        rcases hv with rfl | rfl | rfl
        · exact .inl hh
        · exact .inr (.inl hh)
        · exact .inr (.inr hh))
      rw [this]; exact hρ l
  · refine ⟨fun p hp q hq => ?_, fun p hp => ?_, fun p hp => ?_, fun l n1 n2 n3 => ?_⟩
    · simp only [true_or, if_true, hiddenOn_eq _ _ _ (show p < (machine r n m val).m from hp), G]
      show _ - lr * (-(∑ j ∈ range B, val ⟨false, x⟩ q j * logistic (Rb.zz r val n (val ⟨false, x⟩) p j)) / B - -(∑ j ∈ range B, val ⟨false, c⟩ q j * logistic (Rb.zz r val n (val ⟨false, c⟩) p j)) / B) =
        _ + lr / B * (∑ j ∈ range B, val ⟨false, x⟩ q j * logistic (Rb.zz r val n (val ⟨false, x⟩) p j) - ∑ j ∈ range B, val ⟨false, c⟩ q j * logistic (Rb.zz r val n (val ⟨false, c⟩) p j))
      ring
    · simp only [true_or, or_true, if_true, hiddenOn_eq _ _ _ (show p < (machine r n m val).m from hp), G, if_neg v1.symm]
      show _ - lr * (-(∑ j ∈ range B, logistic (Rb.zz r val n (val ⟨false, x⟩) p j)) / B - -(∑ j ∈ range B, logistic (Rb.zz r val n (val ⟨false, c⟩) p j)) / B) =
        _ + lr / B * (∑ j ∈ range B, logistic (Rb.zz r val n (val ⟨false, x⟩) p j) - ∑ j ∈ range B, logistic (Rb.zz r val n (val ⟨false, c⟩) p j))
      ring
    · simp only [or_true, if_true, G, if_neg v2.symm, if_neg v3.symm]
      ring
    · simp only [n1, n2, n3, or_self, if_false]

/-! ### Monitoring -/

theorem mean_value {a : Term} {f : Nat → ℝ} (hB : 0 < B) (ht : Typed shp a) (hd : dims shp a = (B, 1) ∨ dims shp a = (1, B))
    (hf : ∀ j < B, (dims shp a = (B, 1) → den shp val a j 0 = f j) ∧ (dims shp a = (1, B) → den shp val a 0 j = f j)) :
    ∃ e, reduceMean a = .ok e ∧ Typed shp e ∧ dims shp e = (1, 1) ∧ den shp val e 0 0 = (∑ j ∈ range B, f j) / B := by
  have he : reduceMean a = .ok (.bin .div (.sumAll a) (.nelems a)) := by
    unfold reduceMean div
    rw [if_neg (by simp)]
    rfl
  refine ⟨_, he, ⟨ht, .inl ht, .inl rfl⟩, rfl, ?_⟩
  rw [den_bin (by rfl)]
  simp only [Expr.K2.fn, den]
  rcases hd with hd | hd
  · rw [hd]
    simp only [sum_range_one]
    rw [sum_congr rfl (fun j hj => (hf j (mem_range.1 hj)).1 hd)]
    simp
  · rw [hd]
    simp only [sum_range_one]
    rw [sum_congr rfl (fun j hj => (hf j (mem_range.1 hj)).2 hd)]
    simp

theorem batch_one {t : Tensor ℝ} {e : Term} {a : ℝ} (h : Batch t (dims shp e).1 (dims shp e).2 (den shp val e)) (hd : dims shp e = (1, 1))
    (ha : den shp val e 0 0 = a) : Batch t 1 1 (fun _ _ => a) := by
  rw [hd] at h
  refine batch_congr h (fun i j hi hj => ?_)
  obtain rfl : i = 0 := by omega
  obtain rfl : j = 0 := by omega
  exact ha

/-- The reconstruction cost: the mean log-probability of the data under the probabilities `prop_down` gives for the
hidden vectors in `y`. -/
theorem c66_reconstruction (env : Env ℝ) (hm : ∀ n, env.fits n = true) (on : Bool) (ρ : Backprop.Leaf → Tensor ℝ) (hρ : LeavesHold ρ shp val)
    (h : RbmFits r n m B x c shp) (y : Nat) (hy : shp ⟨false, y⟩ = [m, B] ∨ (B = 1 ∧ shp ⟨false, y⟩ = [m])) :
    ∃ d e t, rbmDown r (.leaf ⟨false, y⟩) = .ok d ∧ rbmRecon (.leaf ⟨false, x⟩) d = .ok e ∧ eval env on ρ e = .ok t ∧
      Batch t 1 1 (fun _ _ => logLikelihood n B (val ⟨false, x⟩) (fun z j => (machine r n m val).visibleOn (fun i => val ⟨false, y⟩ i j) z)) := by
  let Z : Term := .axial (.mm false true (.leaf ⟨false, y⟩) (.tr (.leaf ⟨true, r.w⟩))) (.leaf ⟨true, r.vb⟩)
  let D : Term := .un (.divL 1) (.un (.addL 1) (.un .exp (.un .neg Z)))
  have hd : dims shp (.leaf ⟨false, y⟩) = (m, B) := by
    rcases hy with h | ⟨hB, h⟩ <;> simp only [dims, h, leafSize]
    rw [hB]
  have hM : dims shp (.mm false true (.leaf ⟨false, y⟩) (.tr (.leaf ⟨true, r.w⟩))) = (n, B) := by
    show (_, (dims shp (.leaf ⟨false, y⟩)).2) = _
    rw [hd]; simp [dims, h.weight, leafSize]
  have hDd : dims shp D = (n, B) := hM
  have h1 : Typed shp D := by
    refine ⟨⟨⟨⟨⟨⟨⟨m, B, h.pos.2.1, h.pos.2.2, hy⟩, ⟨m, n, h.pos.2.1, h.pos.1, .inl h.weight⟩, ?_⟩, trivial, _, rfl, ?_⟩, by simp⟩, by simp⟩, by simp⟩, by simp⟩
    · rw [hd]; simp [dims, h.weight, leafSize]
    · rw [hM, h.vbias]
  have h3 : ∀ z < n, ∀ j, den shp val D z j = (machine r n m val).visibleOn (fun i => val ⟨false, y⟩ i j) z := by
    intro z hz j
    rw [visibleOn_eq _ _ _ hz]
    show 1 / (1 + Real.exp (-(∑ i ∈ range (dims shp (.leaf ⟨false, y⟩)).1, val ⟨false, y⟩ i j * val ⟨true, r.w⟩ i z + val ⟨true, r.vb⟩ z 0))) = _
    rw [hd]; rfl
  obtain ⟨-, tx, dx⟩ : True ∧ Typed shp (.leaf ⟨false, x⟩) ∧ dims shp (.leaf ⟨false, x⟩) = (n, B) :=
    ⟨trivial, (Rb.Ok.of h).1.typed, (Rb.Ok.of h).1.dims⟩
  let P : Term := .bin .mul (.leaf ⟨false, x⟩) (.un .log D)
  let Q : Term := .bin .mul (.un (.subL 1) (.leaf ⟨false, x⟩)) (.un .log (.un (.subL 1) D))
  have tP : Typed shp P := ⟨tx, .inl ⟨h1, by simp⟩, .inl (dx.trans hDd.symm)⟩
  have tQ : Typed shp Q := ⟨⟨tx, by simp⟩, .inl ⟨⟨h1, by simp⟩, by simp⟩, .inl (dx.trans hDd.symm)⟩
  have dP : dims shp P = (n, B) := (dims_bin (k := .mul) (a := .leaf ⟨false, x⟩) (b := .un .log D) (dx.trans hDd.symm)).trans dx
  have dQ : dims shp Q = (n, B) := (dims_bin (k := .mul) (a := .un (.subL 1) (.leaf ⟨false, x⟩)) (b := .un .log (.un (.subL 1) D)) (dx.trans hDd.symm)).trans dx
  have tS : Typed shp (.sum0 (.bin .add P Q)) := ⟨tP, .inl tQ, .inl (dP.trans dQ.symm)⟩
  have dS : dims shp (.sum0 (.bin .add P Q)) = (B, 1) := by
    show ((dims shp (.bin .add P Q)).2, 1) = _
    rw [dims_bin (dP.trans dQ.symm), dP]
  have fS : ∀ j, den shp val (.sum0 (.bin .add P Q)) j 0 = ∑ z ∈ range n, (val ⟨false, x⟩ z j * Real.log ((machine r n m val).visibleOn (fun i => val ⟨false, y⟩ i j) z) +
      (1 - val ⟨false, x⟩ z j) * Real.log (1 - (machine r n m val).visibleOn (fun i => val ⟨false, y⟩ i j) z)) := by
    intro j
    show ∑ z ∈ range (dims shp (.bin .add P Q)).1, den shp val (.bin .add P Q) z j = _
    rw [dims_bin (dP.trans dQ.symm), dP]
    refine sum_congr rfl (fun z hz => ?_)
    rw [den_bin (dP.trans dQ.symm), ← h3 z (mem_range.1 hz) j]
    simp only [P, Q]
    rw [den_bin (a := .leaf ⟨false, x⟩) (b := .un .log D) (dx.trans hDd.symm), den_bin (a := .un (.subL 1) (.leaf ⟨false, x⟩)) (b := .un .log (.un (.subL 1) D)) (dx.trans hDd.symm)]
    rfl
  obtain ⟨e, e1, e2, e3, e4⟩ := mean_value (val := val) (f := fun j => ∑ z ∈ range n, (val ⟨false, x⟩ z j * Real.log ((machine r n m val).visibleOn (fun i => val ⟨false, y⟩ i j) z) +
      (1 - val ⟨false, x⟩ z j) * Real.log (1 - (machine r n m val).visibleOn (fun i => val ⟨false, y⟩ i j) z))) h.pos.2.2 tS (.inl dS) (fun j hj => ⟨fun _ => fS j, fun hd => by
        rw [dS] at hd
        injection hd with hd _
        obtain rfl : j = 0 := by omega
        exact fS 0⟩)
  obtain ⟨t, t1, t2⟩ := c60_eval env hm on ρ hρ e e2
  refine ⟨D, e, t, sigmoid_axial (z := Z) trivial, ?_, t1, batch_one t2 e3 e4⟩
  rw [← e1]
  unfold rbmRecon subL
  rw [if_neg one_ne_zero, if_neg one_ne_zero]
  simp [mul, unop, add, node2, grouping, D, Z, P, Q]

/-- The value of `get_pseudo_likelihood_cost` on vectors of zeros and ones: it compares the data with vectors whose first
bit is flipped and whose other bits are negated. -/
theorem c66_pseudo_value (env : Env ℝ) (hm : ∀ n, env.fits n = true) (on : Bool) (ρ : Backprop.Leaf → Tensor ℝ) (hρ : LeavesHold ρ shp val)
    (h : RbmFits r n m B x c shp) (o : Nat) (ho : shp ⟨false, o⟩ = shp ⟨false, x⟩) (hone : ∀ z j, val ⟨false, o⟩ z j = if z = 0 then 1 else 0)
    (hbin : ∀ z j, val ⟨false, x⟩ z j = 0 ∨ val ⟨false, x⟩ z j = 1) :
    ∃ e t, rbmPseudo r n (.leaf ⟨false, o⟩) (.leaf ⟨false, x⟩) = .ok e ∧ eval env on ρ e = .ok t ∧
      Batch t 1 1 (fun _ _ => (∑ j ∈ range B, (n : ℝ) * Real.log (logistic
        ((machine r n m val).freeEnergy (fun z => if z = 0 then 1 - val ⟨false, x⟩ 0 j else -val ⟨false, x⟩ z j) -
          (machine r n m val).freeEnergy (fun z => val ⟨false, x⟩ z j)))) / B) := by
  have hr : ∀ z j, Expr.K1.fn .round (val ⟨false, x⟩ z j) = val ⟨false, x⟩ z j := by
    intro z j
    rcases hbin z j with h | h <;> rw [h] <;> norm_num [Expr.K1.fn, Expr.roundAway]
  have ox := (Rb.Ok.of h).1
  have do' : dims shp (.leaf ⟨false, o⟩) = (n, B) := by
    have := ox.dims
    simp only [dims] at this ⊢
    rw [ho, this]
  have hro : dims shp (.un .round (.leaf ⟨false, x⟩)) = (n, B) := ox.dims
  let s1 : Term := .bin .sub (.leaf ⟨false, o⟩) (.un .round (.leaf ⟨false, x⟩))
  let s2 : Term := .un .round (.leaf ⟨false, x⟩)
  have o2 : Rb.Ok r n m B s2 shp := ⟨h.pos, h.weight, h.hbias, h.vbias, ⟨ox.typed, by simp⟩, ox.dims⟩
  have o1 : Rb.Ok r n m B s1 shp := by
    refine ⟨h.pos, h.weight, h.hbias, h.vbias, ⟨?_, .inl ⟨ox.typed, by simp⟩, .inl (do'.trans hro.symm)⟩, (dims_bin (do'.trans hro.symm)).trans do'⟩
    have := ox.typed
    obtain ⟨a, b, hh⟩ := this
    exact ⟨a, b, by rw [ho]; exact hh⟩
  obtain ⟨p1, p2, p3⟩ := o1.F (val := val)
  obtain ⟨q1, q2, q3⟩ := o2.F (val := val)
  have v1 : ∀ z j, den shp val s1 z j = if z = 0 then 1 - val ⟨false, x⟩ 0 j else -val ⟨false, x⟩ z j := by
    intro z j
    simp only [s1]
    rw [den_bin (do'.trans hro.symm)]
    show val ⟨false, o⟩ z j - Expr.K1.fn .round (val ⟨false, x⟩ z j) = _
    rw [hone, hr]
    split_ifs with hz
    · rw [hz]
    · rw [zero_sub]
  have v2 : ∀ z j, den shp val s2 z j = val ⟨false, x⟩ z j := fun z j => hr z j
  let S : Term := .bin .sub (Rb.F r s1) (Rb.F r s2)
  have tS : Typed shp S := ⟨p1, .inl q1, .inl (p2.trans q2.symm)⟩
  have dS : dims shp S = (1, B) := (dims_bin (k := .sub) (p2.trans q2.symm)).trans p2
  have fS : ∀ j < B, den shp val S 0 j = (machine r n m val).freeEnergy (fun z => if z = 0 then 1 - val ⟨false, x⟩ 0 j else -val ⟨false, x⟩ z j) -
          (machine r n m val).freeEnergy (fun z => val ⟨false, x⟩ z j) := by
    intro j hj
    simp only [S]
    rw [den_bin (p2.trans q2.symm), p3 j hj, q3 j hj]
    simp only [v1, v2]
    rfl
  let L : Term := .un .log (.un (.divL 1) (.un (.addL 1) (.un .exp (.un .neg S))))
  have tL : Typed shp L := ⟨⟨⟨⟨⟨tS, by simp⟩, by simp⟩, by simp⟩, by simp⟩, by simp⟩
  have hIs : Is shp val (mulL n L) 1 B (fun i j => (n : ℝ) * den shp val L i j) := is_mulL (n : ℝ) (.inr ⟨tL, dS, fun _ _ _ _ => rfl⟩)
  have hnc : ∀ a, mulL n L ≠ .const a := by
    rcases mulL_const (shp := shp) L n (by simp [L]) tL with ⟨h0, _⟩ | h'
    · exact absurd h0 (by exact_mod_cast h.pos.1.ne')
    · exact h'
  obtain ⟨tM, dM, fM⟩ : Typed shp (mulL n L) ∧ dims shp (mulL n L) = (1, B) ∧ ∀ i j, i < 1 → j < B → den shp val (mulL n L) i j = n * den shp val L i j := by
    rcases hIs with ⟨a, ha, _⟩ | hh
    · exact absurd ha (hnc a)
    · exact hh
  have fM' : ∀ j < B, den shp val (mulL n L) 0 j = n * Real.log (logistic
        ((machine r n m val).freeEnergy (fun z => if z = 0 then 1 - val ⟨false, x⟩ 0 j else -val ⟨false, x⟩ z j) -
          (machine r n m val).freeEnergy (fun z => val ⟨false, x⟩ z j))) := by
    intro j hj
    rw [fM 0 j (by decide) hj, ← fS j hj]
    rfl
  obtain ⟨e, e1, e2, e3, e4⟩ := mean_value (val := val) (f := fun j => (n : ℝ) * Real.log (logistic
        ((machine r n m val).freeEnergy (fun z => if z = 0 then 1 - val ⟨false, x⟩ 0 j else -val ⟨false, x⟩ z j) -
          (machine r n m val).freeEnergy (fun z => val ⟨false, x⟩ z j)))) h.pos.2.2 tM (.inr dM) (fun j hj => ⟨fun hd => by
        rw [dM] at hd
        injection hd with hd _
        obtain rfl : j = 0 := by omega
        exact fM' 0 hj, fun _ => fM' j hj⟩)
  obtain ⟨t, t1, t2⟩ := c60_eval env hm on ρ hρ e e2
  refine ⟨e, t, ?_, t1, batch_one t2 e3 e4⟩
  have hsub1 : sub (.leaf ⟨false, o⟩) (unop .round (.leaf ⟨false, x⟩)) = s1 := by
    unfold sub unop
    rw [if_neg (by simp)]
    rfl
  have hsub2 : sub (Rb.F r s1) (Rb.F r s2) = S := by
    unfold sub
    rw [if_neg (by simp [Rb.F, Rb.L, Rb.D, Rb.E, Rb.Z, Rb.M, s1, s2])]
    rfl
  unfold rbmPseudo
  rw [hsub1, show unop .round (.leaf ⟨false, x⟩) = s2 from rfl, Rb.free_eq, Rb.free_eq, hsub2]
  have hsig : Backprop.sigmoid S = .ok (.un (.divL 1) (.un (.addL 1) (.un .exp (.un .neg S)))) := by
    unfold Backprop.sigmoid addL
    rw [show neg S = .un .neg S from rfl, if_neg one_ne_zero]
    simp [unop, divL]
  rw [hsig, Outcome.ok_bind]
  exact e1

/-- So the cost is not the pseudo-likelihood: a machine with two visible units, one hidden unit, and one vector. -/
theorem c66_pseudo_negated_bits (env : Env ℝ) (hm : ∀ n, env.fits n = true) (on : Bool) :
    ∃ (r : RbmVars) (shp : Backprop.Leaf → List Nat) (ρ : Backprop.Leaf → Tensor ℝ) (val : Backprop.Leaf → Nat → Nat → ℝ) (e : Term) (t : Tensor ℝ) (a : ℝ),
      LeavesHold ρ shp val ∧ RbmFits r 2 1 1 0 1 shp ∧ (∀ z j, val ⟨false, 0⟩ z j = 0 ∨ val ⟨false, 0⟩ z j = 1) ∧
      (∀ z j, val ⟨false, 2⟩ z j = if z = 0 then 1 else 0) ∧
      rbmPseudo r 2 (.leaf ⟨false, 2⟩) (.leaf ⟨false, 0⟩) = .ok e ∧ eval env on ρ e = .ok t ∧ Batch t 1 1 (fun _ _ => a) ∧
      a ≠ (machine r 2 1 val).pseudoLikelihood 1 (val ⟨false, 0⟩) := by
  let shp : Backprop.Leaf → List Nat := fun l =>
    if l = ⟨true, 0⟩ then [1, 2] else if l = ⟨true, 1⟩ then [1] else if l = ⟨true, 2⟩ then [2] else [2, 1]
  let val : Backprop.Leaf → Nat → Nat → ℝ := fun l i _ =>
    if l = ⟨true, 2⟩ then (if i = 1 then 1 else 0) else if l = ⟨false, 0⟩ then (if i = 1 then 1 else 0)
    else if l = ⟨false, 2⟩ then (if i = 0 then 1 else 0) else 0
  have hs : ∀ l, Full (shp l) := by
    intro l
    simp only [shp]
    split_ifs <;> exact ⟨by simp, by simp⟩
  choose ρ hρ using fun l => full_tensor (shp l) (hs l) (fun c => val l (c.getD 0 0) (c.getD 1 0))
  have hfit : RbmFits ⟨0, 1, 2⟩ 2 1 1 0 1 shp := ⟨by decide, rfl, rfl, rfl, .inl rfl, .inl rfl, by decide, by decide⟩
  have hbin : ∀ z j, val ⟨false, 0⟩ z j = 0 ∨ val ⟨false, 0⟩ z j = 1 := by
    intro z j
    by_cases h : z = 1 <;> simp [val, h]
  have hone : ∀ z j, val ⟨false, 2⟩ z j = if z = 0 then 1 else 0 := by intro z j; simp [val]
  obtain ⟨e, t, h1, h2, h3⟩ := c66_pseudo_value env hm on ρ hρ hfit 2 rfl hone hbin
  refine ⟨⟨0, 1, 2⟩, shp, ρ, val, e, t, _, hρ, hfit, hbin, hone, h1, h2, h3, ?_⟩
  have e1 : ∀ v : Nat → ℝ, (machine ⟨0, 1, 2⟩ 2 1 val).freeEnergy v = -Real.log 2 - v 1 := by
    intro v
    simp [Boltzmann.freeEnergy, machine, val, sum_range_succ]
    norm_num
  unfold Boltzmann.pseudoLikelihood
  simp only [e1, sum_range_one]
  have hv0 : val ⟨false, 0⟩ 1 0 = 1 := by simp [val]
  simp only [flipFirst, one_ne_zero, if_false, hv0]
  have hmn : (machine ⟨0, 1, 2⟩ 2 1 val).n = 2 := rfl
  rw [hmn]
  intro h
  have h4 : Real.log (logistic (-Real.log 2 - -1 - (-Real.log 2 - 1))) = Real.log (logistic (-Real.log 2 - 1 - (-Real.log 2 - 1))) := by
    have h5 : ((2 : Nat) : ℝ) ≠ 0 := by norm_num
    simp only [Nat.cast_one, div_one] at h
    exact mul_left_cancel₀ h5 h
  have h5 := Real.log_injOn_pos (logistic_mem _).1 (logistic_mem _).1 h4
  have h6 : (-Real.log 2 - -1 - (-Real.log 2 - 1) : ℝ) = 2 := by ring
  have h7 : (-Real.log 2 - 1 - (-Real.log 2 - 1) : ℝ) = 0 := by ring
  rw [h6, h7] at h5
  unfold logistic at h5
  have h8 : Real.exp (-2) < Real.exp (-0) := Real.exp_lt_exp.2 (by norm_num)
  have h9 := Real.exp_pos (-2)
  rw [div_eq_div_iff (by positivity) (by positivity)] at h5
  linarith

/-- A machine of four visible and three hidden units with batches of five, as in the theorems above. -/
example : ∃ (r : RbmVars) (shp : Backprop.Leaf → List Nat) (ρ : Backprop.Leaf → Tensor ℝ) (val : Backprop.Leaf → Nat → Nat → ℝ),
    LeavesHold ρ shp val ∧ RbmFits r 4 3 5 0 1 shp ∧ shp ⟨false, 2⟩ = [3, 5] := by
  let shp : Backprop.Leaf → List Nat := fun l =>
    if l = ⟨true, 0⟩ then [3, 4] else if l = ⟨true, 1⟩ then [3] else if l = ⟨true, 2⟩ then [4] else if l = ⟨false, 2⟩ then [3, 5] else [4, 5]
  have hs : ∀ l, Full (shp l) := by
    intro l
    simp only [shp]
    split_ifs <;> exact ⟨by simp, by simp⟩
  choose ρ hρ using fun l => full_tensor (shp l) (hs l) (fun c => (c.getD 0 0 : ℝ) + 2 * c.getD 1 0)
  exact ⟨⟨0, 1, 2⟩, shp, ρ, fun _ i j => (i : ℝ) + 2 * j, hρ, ⟨by decide, rfl, rfl, rfl, .inl rfl, .inl rfl, by decide, by decide⟩, rfl⟩

end Verif.Props
