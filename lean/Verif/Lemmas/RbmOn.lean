import Verif.Props.Gibbs
import Verif.Spec.Dbn
/-!
# A restricted Boltzmann machine whose input is any node
-/
namespace Verif.Props
open Spec Backprop Finset
open scoped Classical
variable {shp : Backprop.Leaf → List Nat} {val : Backprop.Leaf → Nat → Nat → ℝ}
variable {r : RbmVars} {n m B x c : Nat} {s : Term}

namespace Rb

theorem free_info {v : Nat} {s : Term} (h : Free v s) : info v s = ⟨.ok (.const 0), none⟩ ∧ uses v s = false := by
  obtain ⟨h1, h2⟩ := info_free h
  refine ⟨?_, free_uses.1 h⟩
  cases hi : info v s with
  | mk g j =>
    rw [hi] at h1 h2
    simp only at h1 h2
    rw [h1, h2]

theorem free_ne {v : Nat} {s : Term} (h : Free v s) : s ≠ .leaf ⟨true, v⟩ := by
  rintro rfl
  exact h rfl

theorem info_W' (h1 : r.w ≠ r.hb) (h2 : r.w ≠ r.vb) (hs : Free r.w s) : info r.w (A r s) =
    ⟨.ok (gW r s), some ⟨M r s, [mmJacobian false false s (.leaf ⟨true, r.w⟩) (.ok (.const 0)) (.ok (.const 1))], false⟩⟩ := by
  obtain ⟨i1, i2⟩ := free_info hs
  have i3 := free_ne hs
  simp [A, F, L, D, E, Z, M, V, info, i1, i2, i3, uses, inheritArgs, inherit2, inherit1, inherit, argGrad, isTerminal, pushBack, ginit1, ginit2, Backprop.cond, mul, unop, add, pow,
      mulR, mulL, node2, grouping, addAxial, h1.symm, h2.symm, div, sub, neg, gW, qq, N2, axialNode]

theorem info_H' (h1 : r.w ≠ r.hb) (h3 : r.hb ≠ r.vb) (hs : Free r.hb s) : info r.hb (A r s) =
    ⟨.ok (gH r s), some ⟨Z r s, [axialJacobian], false⟩⟩ := by
  obtain ⟨i1, i2⟩ := free_info hs
  simp [A, F, L, D, E, Z, M, V, info, i1, i2, uses, inheritArgs, inherit2, inherit1, inherit, argGrad, isTerminal, pushFront, ginit1, ginit2, mul, unop, add, pow,
      mulL, node2, grouping, addAxial, h1, h3.symm, div, sub, neg, gH, N2, axialNode]

theorem info_V' (h2 : r.w ≠ r.vb) (h3 : r.hb ≠ r.vb) (hs : Free r.vb s) : info r.vb (A r s) =
    ⟨.ok (gV r s), some ⟨V r s, [mmJacobian false true s (.tr (.leaf ⟨true, r.vb⟩)) (.ok (.const 0)) (.ok (.tr (.const 1)))], false⟩⟩ := by
  obtain ⟨i1, i2⟩ := free_info hs
  simp [A, F, L, D, E, Z, M, V, info, i1, i2, uses, inheritArgs, inherit2, inherit1, inherit, argGrad, isTerminal, pushBack, ginit1, ginit2, Backprop.cond, mul, unop, add, pow,
      mulL, node2, grouping, h2, h3, div, sub, neg, gV, qq, N2, transpose]

/-- What the input of the machine is: no variable of the machine, and not its own sample. -/
structure InputOf (r : RbmVars) (c : Nat) (s : Term) : Prop where
  free : Free r.w s ∧ Free r.hb s ∧ Free r.vb s
  tr : transpose s = .tr s
  other : s ≠ .leaf ⟨false, c⟩

theorem A_ne (h : s ≠ .leaf ⟨false, c⟩) : A r s ≠ A r (.leaf ⟨false, c⟩) := by simp [A, F, L, D, E, Z, M, h]

theorem cost_eq' (h : s ≠ .leaf ⟨false, c⟩) : rbmCost r s (.leaf ⟨false, c⟩) = .ok (.bin .sub (A r s) (A r (.leaf ⟨false, c⟩))) := by
  unfold rbmCost
  rw [mean_eq, mean_eq, Outcome.ok_bind, Outcome.ok_bind]
  unfold sub
  rw [if_neg (A_ne h)]
  rfl

theorem derive_W' (h1 : r.w ≠ r.hb) (h2 : r.w ≠ r.vb) (h : InputOf r c s) :
    derive r.w (.bin .sub (A r s) (A r (.leaf ⟨false, c⟩))) = .ok (.bin .sub (dW r s) (dW r (.leaf ⟨false, c⟩))) := by
  have ho := h.other
  have ht := h.tr
  rw [derive_sub (info_W' h1 h2 h.free.1) (info_W r h1 h2 c) (by simp) (by simp) (by simp [M, ho]) (A_ne ho) (by simp [A, F, L, D, E, Z, M, V, uses])]
  have e1 : transpose (.leaf ⟨false, c⟩) = .tr (.leaf ⟨false, c⟩) := rfl
  simp [jacobianCall, mmJacobian, isZero, matmul, ht, e1, mul, mulR, add, gW, sub, node2, grouping, dW, ho]

theorem derive_H' (h1 : r.w ≠ r.hb) (h3 : r.hb ≠ r.vb) (h : InputOf r c s) :
    derive r.hb (.bin .sub (A r s) (A r (.leaf ⟨false, c⟩))) = .ok (.bin .sub (dH r s) (dH r (.leaf ⟨false, c⟩))) := by
  have ho := h.other
  rw [derive_sub (info_H' h1 h3 h.free.2.1) (info_H r h1 h3 c) (by simp) (by simp) (by simp [Z, M, ho]) (A_ne ho) (by simp [A, F, L, D, E, Z, M, V, uses])]
  simp [jacobianCall, axialJacobian, gH, sub, node2, grouping, dH, E, Z, M, ho]

theorem derive_V' (h2 : r.w ≠ r.vb) (h3 : r.hb ≠ r.vb) (h : InputOf r c s) :
    derive r.vb (.bin .sub (A r s) (A r (.leaf ⟨false, c⟩))) = .ok (.bin .sub (dV r s) (dV r (.leaf ⟨false, c⟩))) := by
  have ho := h.other
  have ht := h.tr
  rw [derive_sub (info_V' h2 h3 h.free.2.2) (info_V r h2 h3 c) (by simp) (by simp) (by simp [V, ho]) (A_ne ho) (by simp [A, F, L, D, E, Z, M, V, uses])]
  have e1 : transpose (.leaf ⟨false, c⟩) = .tr (.leaf ⟨false, c⟩) := rfl
  have e2 : ∀ a f g b, transpose (.mm f g a b) = .tr (.mm f g a b) := fun _ _ _ _ => rfl
  have e3 : ∀ a, transpose (.tr a) = a := fun _ => rfl
  simp [jacobianCall, mmJacobian, isZero, matmul, ht, e1, e2, e3, mul, add, gV, sub, node2, grouping, dV, ho]

/-- A training step, for the input `s` and the end of the chain in `c`. -/
theorem train_on (env : Env ℝ) (hm : ∀ n, env.fits n = true) (hz : env.zero = 0) (on : Bool) (lr : ℝ) (ρ : Backprop.Leaf → Tensor ℝ)
    (hρ : LeavesHold ρ shp val) (o1 : Ok r n m B s shp) (o2 : Ok r n m B (.leaf ⟨false, c⟩) shp) (hi : InputOf r c s)
    (hv : r.w ≠ r.hb ∧ r.w ≠ r.vb ∧ r.hb ≠ r.vb) :
    ∃ e ρ' val', rbmCost r s (.leaf ⟨false, c⟩) = .ok e ∧ rbmUpdates env on lr e ρ [r.w, r.hb, r.vb] ρ = .ok ρ' ∧ LeavesHold ρ' shp val' ∧
      CdStepOn r n m B lr (den shp val s) (val ⟨false, c⟩) val val' := by
  obtain ⟨v1, v2, v3⟩ := hv
  obtain ⟨pW1, pW2, pW3⟩ := o1.dW (val := val)
  obtain ⟨qW1, qW2, qW3⟩ := o2.dW (val := val)
  have hd := Rb.is_diff pW1 qW1 pW2 qW2 (fun p q hp _ => pW3 p q hp) (fun p q hp _ => qW3 p q hp)
  obtain ⟨pH1, pH2, pH3⟩ := o1.dH (val := val)
  obtain ⟨qH1, qH2, qH3⟩ := o2.dH (val := val)
  have hd' := Rb.is_diff pH1 qH1 pH2 qH2 (fun p q hp _ => pH3 p q hp) (fun p q hp _ => qH3 p q hp)
  obtain ⟨pV1, pV2, pV3⟩ := o1.dV (val := val)
  obtain ⟨qV1, qV2, qV3⟩ := o2.dV (val := val)
  have hd'' := Rb.is_diff pV1 qV1 pV2 qV2 pV3 qV3
  set a := den shp val s
  have hc : den shp val (.leaf ⟨false, c⟩) = val ⟨false, c⟩ := rfl
  rw [hc] at hd hd' hd''
  set b := val ⟨false, c⟩
  let G : Nat → Nat → Nat → ℝ := fun v p q =>
    if v = r.w then -(∑ j ∈ range B, a q j * logistic (zz r val n a p j)) / B - -(∑ j ∈ range B, b q j * logistic (zz r val n b p j)) / B
    else if v = r.hb then -(∑ j ∈ range B, logistic (zz r val n a p j)) / B - -(∑ j ∈ range B, logistic (zz r val n b p j)) / B
    else -(∑ j ∈ range B, a p j) / B - -(∑ j ∈ range B, b p j) / B
  have hcase : ∀ v ∈ [r.w, r.hb, r.vb], Typed shp (.leaf ⟨true, v⟩) ∧ ∃ d, derive v (.bin .sub (A r s) (A r (.leaf ⟨false, c⟩))) = .ok d ∧ (∀ c, d ≠ .const c) ∧
      Is shp val d (leafSize (shp ⟨true, v⟩)).1 (leafSize (shp ⟨true, v⟩)).2 (G v) := by
    intro v hv
    simp only [List.mem_cons, List.not_mem_nil, or_false] at hv
    rcases hv with rfl | rfl | rfl
    · refine ⟨⟨m, n, o1.pos.2.1, o1.pos.1, .inl o1.weight⟩, _, derive_W' v1 v2 hi, by simp, ?_⟩
      rw [o1.weight]
      exact hd.congr (fun i j _ _ => by simp only [G, if_true])
    · refine ⟨⟨m, 1, o1.pos.2.1, by decide, .inr ⟨rfl, o1.hbias⟩⟩, _, derive_H' v1 v3 hi, by simp, ?_⟩
      rw [o1.hbias]
      exact hd'.congr (fun i j _ _ => by simp only [G, if_neg v1.symm, if_true])
    · refine ⟨⟨n, 1, o1.pos.1, by decide, .inr ⟨rfl, o1.vbias⟩⟩, _, derive_V' v2 v3 hi, by simp, ?_⟩
      rw [o1.vbias]
      exact hd''.congr (fun i j _ _ => by simp only [G, if_neg v2.symm, if_neg v3.symm])
  obtain ⟨ρ', h1, h2, h3⟩ := rbm_updates env hm hz on lr ρ hρ _ G [r.w, r.hb, r.vb] ρ (by simp [v1, v2, v3]) hcase (fun _ _ => rfl)
  refine ⟨_, ρ', fun l i j => if l = ⟨true, r.w⟩ ∨ l = ⟨true, r.hb⟩ ∨ l = ⟨true, r.vb⟩ then val l i j - lr * G l.id i j else val l i j, cost_eq' hi.other, h1, fun l => ?_, ?_⟩
  · by_cases hl : l = ⟨true, r.w⟩ ∨ l = ⟨true, r.hb⟩ ∨ l = ⟨true, r.vb⟩
    · simp only [if_pos hl]
      rcases hl with rfl | rfl | rfl
      · exact h3 r.w (by simp)
      · exact h3 r.hb (by simp)
      · exact h3 r.vb (by simp)
    · simp only [if_neg hl]
      have : ρ' l = ρ l := h2 l (by
        intro v hv hh
        simp only [List.mem_cons, List.not_mem_nil, or_false] at hv
        refine hl ?_
        rcases hv with rfl | rfl | rfl
        · exact .inl hh
        · exact .inr (.inl hh)
        · exact .inr (.inr hh))
      rw [this]; exact hρ l
  · refine ⟨fun p hp q hq => ?_, fun p hp => ?_, fun p hp => ?_, fun l n1 n2 n3 => ?_⟩
    · simp only [true_or, if_true, hiddenOn_eq _ _ _ (show p < (machine r n m val).m from hp), G]
      show _ - lr * (-(∑ j ∈ range B, a q j * logistic (zz r val n a p j)) / B - -(∑ j ∈ range B, b q j * logistic (zz r val n b p j)) / B) =
        _ + lr / B * (∑ j ∈ range B, a q j * logistic (zz r val n a p j) - ∑ j ∈ range B, b q j * logistic (zz r val n b p j))
      ring
    · simp only [true_or, or_true, if_true, hiddenOn_eq _ _ _ (show p < (machine r n m val).m from hp), G, if_neg v1.symm]
      show _ - lr * (-(∑ j ∈ range B, logistic (zz r val n a p j)) / B - -(∑ j ∈ range B, logistic (zz r val n b p j)) / B) =
        _ + lr / B * (∑ j ∈ range B, logistic (zz r val n a p j) - ∑ j ∈ range B, logistic (zz r val n b p j))
      ring
    · simp only [or_true, if_true, G, if_neg v2.symm, if_neg v3.symm]
      ring
    · simp only [n1, n2, n3, or_self, if_false]

/-! ### The chain -/

/-- The shapes of the machine's variables. -/
structure Fit (r : RbmVars) (n m B : Nat) (shp : Backprop.Leaf → List Nat) : Prop where
  pos : 0 < n ∧ 0 < m ∧ 0 < B
  weight : shp ⟨true, r.w⟩ = [m, n]
  hbias : shp ⟨true, r.hb⟩ = [m]
  vbias : shp ⟨true, r.vb⟩ = [n]

theorem Fit.leaf (h : Fit r n m B shp) (hx : shp ⟨false, x⟩ = [n, B] ∨ (B = 1 ∧ shp ⟨false, x⟩ = [n])) : Ok r n m B (.leaf ⟨false, x⟩) shp := by
  refine ⟨h.pos, h.weight, h.hbias, h.vbias, ⟨n, B, h.pos.1, h.pos.2.2, hx⟩, ?_⟩
  rcases hx with hx | ⟨hB, hx⟩ <;> simp only [Spec.dims, hx, leafSize]
  rw [hB]

theorem up_val (env : Env ℝ) (hm : ∀ n, env.fits n = true) (on : Bool) (ρ : Backprop.Leaf → Tensor ℝ) (hρ : LeavesHold ρ shp val) (h : Ok r n m B s shp) :
    ∃ e t, rbmUp r s = .ok e ∧ eval env on ρ e = .ok t ∧ Batch t m B (fun i j => (machine r n m val).hiddenOn (fun z => den shp val s z j) i) ∧
      ∀ i < m, ∀ j, 0 < (machine r n m val).hiddenOn (fun z => den shp val s z j) i ∧ (machine r n m val).hiddenOn (fun z => den shp val s z j) i < 1 := by
  obtain ⟨h1, h2, h3⟩ := h.Z (val := val)
  obtain ⟨e, a1, a2, a3, a4, _⟩ := den_act (v := 0) (z := Rb.Z r s) trivial h1 .sigmoid
  obtain ⟨t, e1, e2⟩ := c60_eval env hm on ρ hρ e a2
  refine ⟨e, t, a1, e1, ?_, fun i hi j => ?_⟩
  · rw [a3, h2] at e2
    refine batch_congr e2 (fun i j hi hj => ?_)
    rw [a4, h3, hiddenOn_eq _ _ _ hi]
    rfl
  · rw [hiddenOn_eq _ _ _ hi]
    exact logistic_mem _

theorem down_val (env : Env ℝ) (hm : ∀ n, env.fits n = true) (on : Bool) (ρ : Backprop.Leaf → Tensor ℝ) (hρ : LeavesHold ρ shp val)
    (h : Fit r n m B shp) (y : Nat) (hy : shp ⟨false, y⟩ = [m, B] ∨ (B = 1 ∧ shp ⟨false, y⟩ = [m])) :
    ∃ e t, rbmDown r (.leaf ⟨false, y⟩) = .ok e ∧ eval env on ρ e = .ok t ∧
      Batch t n B (fun z j => (machine r n m val).visibleOn (fun i => val ⟨false, y⟩ i j) z) ∧
      ∀ z < n, ∀ j, 0 < (machine r n m val).visibleOn (fun i => val ⟨false, y⟩ i j) z ∧
        (machine r n m val).visibleOn (fun i => val ⟨false, y⟩ i j) z < 1 := by
  let Z : Term := .axial (.mm false true (.leaf ⟨false, y⟩) (.tr (.leaf ⟨true, r.w⟩))) (.leaf ⟨true, r.vb⟩)
  have hd : Spec.dims shp (.leaf ⟨false, y⟩) = (m, B) := by
    rcases hy with h | ⟨hB, h⟩ <;> simp only [Spec.dims, h, leafSize]
    rw [hB]
  have hM : Spec.dims shp (.mm false true (.leaf ⟨false, y⟩) (.tr (.leaf ⟨true, r.w⟩))) = (n, B) := by
    show (_, (Spec.dims shp (.leaf ⟨false, y⟩)).2) = _
    rw [hd]; simp [Spec.dims, h.weight, leafSize]
  have h1 : Typed shp Z := by
    refine ⟨⟨⟨m, B, h.pos.2.1, h.pos.2.2, hy⟩, ⟨m, n, h.pos.2.1, h.pos.1, .inl h.weight⟩, ?_⟩, trivial, _, rfl, ?_⟩
    · rw [hd]; simp [Spec.dims, h.weight, leafSize]
    · rw [hM, h.vbias]
  have h3 : ∀ z j, den shp val Z z j = ∑ i ∈ range m, val ⟨false, y⟩ i j * val ⟨true, r.w⟩ i z + val ⟨true, r.vb⟩ z 0 := by
    intro z j
    show ∑ i ∈ range (Spec.dims shp (.leaf ⟨false, y⟩)).1, val ⟨false, y⟩ i j * val ⟨true, r.w⟩ i z + val ⟨true, r.vb⟩ z 0 = _
    rw [hd]
  obtain ⟨e, a1, a2, a3, a4, _⟩ := den_act (v := 0) (z := Z) trivial h1 .sigmoid
  obtain ⟨t, e1, e2⟩ := c60_eval env hm on ρ hρ e a2
  refine ⟨e, t, a1, e1, ?_, fun i hi j => ?_⟩
  · rw [a3, show Spec.dims shp Z = (n, B) from hM] at e2
    refine batch_congr e2 (fun i j hi hj => ?_)
    rw [a4, h3, visibleOn_eq _ _ _ hi]
    rfl
  · rw [visibleOn_eq _ _ _ hi]
    exact logistic_mem _

theorem Fit.put (h : Fit r n m B shp) (l : Nat) (a : List Nat) : Fit r n m B (fun k => if k = ⟨false, l⟩ then a else shp k) :=
  ⟨h.pos, by simpa using h.weight, by simpa using h.hbias, by simpa using h.vbias⟩

/-- One round. -/
theorem round_on (env : Env ℝ) (hm : ∀ n, env.fits n = true) (on : Bool) (ρ : Backprop.Leaf → Tensor ℝ) (hρ : LeavesHold ρ shp val)
    (h : Fit r n m B shp) (y : Nat) (hy : shp ⟨false, y⟩ = [m, B] ∨ (B = 1 ∧ shp ⟨false, y⟩ = [m])) (hcy : c ≠ y) (d1 d2 : Draw) :
    ∃ (ρ' : Backprop.Leaf → Tensor ℝ) (shp' : Backprop.Leaf → List Nat), gibbsRound env on r c y d1 d2 ρ = .ok ρ' ∧
      LeavesHold ρ' shp' (withChain c y ((machine r n m val).drawVisible d1 (val ⟨false, y⟩),
        (machine r n m val).drawHidden d2 ((machine r n m val).drawVisible d1 (val ⟨false, y⟩))) val) ∧
      Fit r n m B shp' ∧ (shp' ⟨false, c⟩ = [n, B] ∨ (B = 1 ∧ shp' ⟨false, c⟩ = [n])) ∧ (shp' ⟨false, y⟩ = [m, B] ∨ (B = 1 ∧ shp' ⟨false, y⟩ = [m])) ∧
      ∀ l, l ≠ ⟨false, c⟩ → l ≠ ⟨false, y⟩ → shp' l = shp l := by
  obtain ⟨e, p, h1, h2, h3, h4⟩ := down_val env hm on ρ hρ h y hy
  obtain ⟨v, h5, h6⟩ := sample_batch env hm d1 p _ h3 (fun z j hz _ => ⟨(h4 z hz j).1.le, (h4 z hz j).2.le⟩)
  obtain ⟨s, hs, h7⟩ := put_batch hρ ⟨false, c⟩ v n B _ h6
  have ne3 : (⟨false, c⟩ : Backprop.Leaf) ≠ ⟨false, y⟩ := by intro hh; injection hh with _ hh; exact hcy hh
  have fit1 := h.put c s
  obtain ⟨e', q, g1, g2, g3, g4⟩ := up_val env hm on _ h7 (fit1.leaf (x := c) (by simp only [if_true]; exact hs))
  have hmach : machine r n m (fun k => if k = ⟨false, c⟩ then sampled n d1 (fun z j => (machine r n m val).visibleOn (fun i => val ⟨false, y⟩ i j) z) else val k) =
      machine r n m val := by simp [machine]
  rw [hmach] at g3 g4
  simp only [den, if_true] at g3 g4
  obtain ⟨hh, g5, g6⟩ := sample_batch env hm d2 q _ g3 (fun i j hi _ => ⟨(g4 i hi j).1.le, (g4 i hi j).2.le⟩)
  obtain ⟨s', hs', g7⟩ := put_batch h7 ⟨false, y⟩ hh m B _ g6
  refine ⟨_, _, ?_, g7, fit1.put y s', ?_, ?_, ?_⟩
  · unfold gibbsRound
    rw [h1, Outcome.ok_bind, h2, Outcome.ok_bind, h5, Outcome.ok_bind, g1, Outcome.ok_bind, g2, Outcome.ok_bind, g5, Outcome.ok_bind]
  · simp only [if_neg ne3, if_true]; exact hs
  · simp only [if_true]; exact hs'
  · intro l l1 l2
    simp only [if_neg l1, if_neg l2]

/-- `k` rounds: Gibbs sampling from the hidden units in `y`. -/
theorem rounds_on (env : Env ℝ) (hm : ∀ n, env.fits n = true) (on : Bool) (y : Nat) (hcy : c ≠ y) :
    ∀ (k : Nat) (D : Nat → Draw) (ρ : Backprop.Leaf → Tensor ℝ) (shp : Backprop.Leaf → List Nat) (val : Backprop.Leaf → Nat → Nat → ℝ),
    LeavesHold ρ shp val → Fit r n m B shp → (shp ⟨false, y⟩ = [m, B] ∨ (B = 1 ∧ shp ⟨false, y⟩ = [m])) →
    ∃ (ρ' : Backprop.Leaf → Tensor ℝ) (shp' : Backprop.Leaf → List Nat), gibbsRounds env on r c y k D ρ = .ok ρ' ∧
      LeavesHold ρ' shp' (withChain c y ((machine r n m val).gibbs k D (val ⟨false, c⟩, val ⟨false, y⟩)) val) ∧
      Fit r n m B shp' ∧ (k ≠ 0 → shp' ⟨false, c⟩ = [n, B] ∨ (B = 1 ∧ shp' ⟨false, c⟩ = [n])) ∧
      ∀ l, l ≠ ⟨false, c⟩ → l ≠ ⟨false, y⟩ → shp' l = shp l := by
  have ne3 : (⟨false, c⟩ : Backprop.Leaf) ≠ ⟨false, y⟩ := by intro hh; injection hh with _ hh; exact hcy hh
  intro k
  induction k with
  | zero =>
    intro D ρ shp val hρ h hy
    refine ⟨ρ, shp, rfl, ?_, h, fun hk => absurd rfl hk, fun _ _ _ => rfl⟩
    have : withChain c y ((machine r n m val).gibbs 0 D (val ⟨false, c⟩, val ⟨false, y⟩)) val = val := by
      funext l
      simp only [withChain, Boltzmann.gibbs]
      by_cases hl : l = ⟨false, y⟩
      · rw [if_pos hl, hl]
      · rw [if_neg hl]
        by_cases hl' : l = ⟨false, c⟩
        · rw [if_pos hl', hl']
        · rw [if_neg hl']
    rw [this]; exact hρ
  | succ k ih =>
    intro D ρ shp val hρ h hy
    obtain ⟨ρ1, shp1, h1, h2, h3, hc, h4, h5⟩ := round_on env hm on ρ hρ h y hy hcy (D 0) (D 1)
    obtain ⟨ρ2, shp2, g1, g2, g3, g4, g5⟩ := ih (fun i => D (i + 2)) ρ1 shp1 _ h2 h3 h4
    refine ⟨ρ2, shp2, by rw [gibbsRounds, h1, Outcome.ok_bind, g1], ?_, g3, fun _ => ?_, fun l l1 l2 => (g5 l l1 l2).trans (h5 l l1 l2)⟩
    · rw [machine_withChain] at g2
      intro l
      refine holds_congr (g2 l) (fun q _ => ?_)
      simp only [Boltzmann.gibbs, withChain]
      by_cases hl : l = ⟨false, y⟩
      · simp only [if_pos hl, if_neg ne3, if_true]
      · simp only [if_neg hl]
        by_cases hl' : l = ⟨false, c⟩
        · simp only [if_pos hl', if_neg ne3, if_true]
        · simp only [if_neg hl']
    · by_cases hk : k = 0
      · subst hk
        cases g1
        have hh := (g2 ⟨false, c⟩).shape
        have hh' := (h2 ⟨false, c⟩).shape
        have : shp2 ⟨false, c⟩ = shp1 ⟨false, c⟩ := hh.symm.trans hh'
        rw [this]; exact hc
      · exact g4 hk

/-- The chain. -/
theorem chain_on (env : Env ℝ) (hm : ∀ n, env.fits n = true) (on : Bool) (ρ : Backprop.Leaf → Tensor ℝ) (hρ : LeavesHold ρ shp val)
    (h : Ok r n m B s shp) (y : Nat) (hcy : c ≠ y) (k : Nat) (D : Nat → Draw) :
    ∃ (ρ' : Backprop.Leaf → Tensor ℝ) (shp' : Backprop.Leaf → List Nat), gibbsChainOf env on r s c y k D ρ = .ok ρ' ∧
      LeavesHold ρ' shp' (withChain c y (cdChainOn (machine r n m val) (den shp val s) (val ⟨false, c⟩) k D) val) ∧
      (k ≠ 0 → shp' ⟨false, c⟩ = [n, B] ∨ (B = 1 ∧ shp' ⟨false, c⟩ = [n])) ∧
      ∀ l, l ≠ ⟨false, c⟩ → l ≠ ⟨false, y⟩ → shp' l = shp l := by
  obtain ⟨e, q, h1, h2, h3, h4⟩ := up_val env hm on ρ hρ h
  obtain ⟨t, h5, h6⟩ := sample_batch env hm (D 0) q _ h3 (fun i j hi _ => ⟨(h4 i hi j).1.le, (h4 i hi j).2.le⟩)
  obtain ⟨s', hs, h7⟩ := put_batch hρ ⟨false, y⟩ t m B _ h6
  have ne3 : (⟨false, c⟩ : Backprop.Leaf) ≠ ⟨false, y⟩ := by intro hh; injection hh with _ hh; exact hcy hh
  have fit0 : Fit r n m B shp := ⟨h.pos, h.weight, h.hbias, h.vbias⟩
  obtain ⟨ρ', shp', g1, g2, g3, g4, g5⟩ := rounds_on (c := c) env hm on y hcy k (fun i => D (i + 1)) _ _ _ h7 (fit0.put y s') (by simp only [if_true]; exact hs)
  refine ⟨ρ', shp', ?_, ?_, g4, fun l l1 l2 => ?_⟩
  · unfold gibbsChainOf
    rw [h1, Outcome.ok_bind, h2, Outcome.ok_bind, h5, Outcome.ok_bind, g1]
  · have hmach : machine r n m (fun k => if k = ⟨false, y⟩ then sampled m (D 0) (fun i j => (machine r n m val).hiddenOn (fun z => den shp val s z j) i) else val k) =
        machine r n m val := by simp [machine]
    rw [hmach] at g2
    intro l
    refine holds_congr (g2 l) (fun q _ => ?_)
    simp only [withChain, cdChainOn, if_neg ne3, if_true]
    by_cases hl : l = ⟨false, y⟩
    · simp only [if_pos hl]; rfl
    · simp only [if_neg hl]
      by_cases hl' : l = ⟨false, c⟩
      · simp only [if_pos hl']; rfl
      · simp only [if_neg hl']
  · rw [g5 l l1 l2, if_neg l2]

end Rb
end Verif.Props
