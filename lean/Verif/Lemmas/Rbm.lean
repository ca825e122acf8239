import Verif.Spec.Rbm
import Verif.Props.GdStep
import Mathlib.Algebra.BigOperators.Field
/-!
# Lemmas about the terms of a restricted Boltzmann machine
-/
namespace Verif.Props
open Spec Backprop Finset
open scoped Classical
variable {shp : Backprop.Leaf → List Nat} {val : Backprop.Leaf → Nat → Nat → ℝ} {v : Nat}

namespace Rb
variable (r : RbmVars)

def M (s : Term) : Term := .mm false false s (.leaf ⟨true, r.w⟩)
def Z (s : Term) : Term := .axial (M r s) (.leaf ⟨true, r.hb⟩)
noncomputable def E (s : Term) : Term := .un .exp (Z r s)
noncomputable def D (s : Term) : Term := .un (.addL 1) (E r s)
noncomputable def L (s : Term) : Term := .un .log (D r s)
def V (s : Term) : Term := .mm false true s (.tr (.leaf ⟨true, r.vb⟩))
noncomputable def F (s : Term) : Term := .un .neg (.bin .add (.sum0 (L r s)) (V r s))
noncomputable def A (s : Term) : Term := .bin .div (.sumAll (F r s)) (.nelems (F r s))
noncomputable def N2 (s : Term) : Term := .un (.pow 2) (.nelems (F r s))

theorem free_eq (s : Term) : rbmFreeEnergy r s = F r s := by
  unfold rbmFreeEnergy addL
  rw [if_neg one_ne_zero]
  rfl

theorem mean_eq (s : Term) : reduceMean (rbmFreeEnergy r s) = .ok (A r s) := by
  rw [free_eq]
  unfold reduceMean div
  rw [if_neg (by simp)]
  rfl

theorem cost_eq {x c : Nat} (h : x ≠ c) : rbmCost r (.leaf ⟨false, x⟩) (.leaf ⟨false, c⟩) =
    .ok (.bin .sub (A r (.leaf ⟨false, x⟩)) (A r (.leaf ⟨false, c⟩))) := by
  unfold rbmCost
  rw [mean_eq, mean_eq, Outcome.ok_bind, Outcome.ok_bind]
  unfold sub
  rw [if_neg (by simp [A, F, L, D, E, Z, M, h])]
  rfl

noncomputable def qq (m : Term) : Term := .bin (.cond "eq".toList eqCmp) m m

/-- … for the weight. -/
noncomputable def gW (s : Term) : Term :=
  .bin .div (.binAx .mul 0 false (.un .neg (.grp 0 (.bin .div (.bin .mul (qq (M r s)) (E r s)) (D r s)))) (.nelems (F r s))) (N2 r s)

theorem info_W (h1 : r.w ≠ r.hb) (h2 : r.w ≠ r.vb) (x : Nat) : info r.w (A r (.leaf ⟨false, x⟩)) =
    ⟨.ok (gW r (.leaf ⟨false, x⟩)), some ⟨M r (.leaf ⟨false, x⟩), [mmJacobian false false (.leaf ⟨false, x⟩) (.leaf ⟨true, r.w⟩) (.ok (.const 0)) (.ok (.const 1))], false⟩⟩ := by
  simp [A, F, L, D, E, Z, M, V, info, uses, inheritArgs, inherit2, inherit1, inherit, argGrad, isTerminal, pushBack, ginit1, ginit2, Backprop.cond, mul, unop, add, pow,
      mulR, mulL, node2, grouping, addAxial, h1.symm, h2.symm, div, sub, neg, gW, qq, N2, axialNode]

/-- … for the hidden bias. -/
noncomputable def gH (s : Term) : Term :=
  .bin .div (.binAx .mul 0 false (.un .neg (.grp 0 (.bin .div (E r s) (D r s)))) (.nelems (F r s))) (N2 r s)

theorem info_H (h1 : r.w ≠ r.hb) (h3 : r.hb ≠ r.vb) (x : Nat) : info r.hb (A r (.leaf ⟨false, x⟩)) =
    ⟨.ok (gH r (.leaf ⟨false, x⟩)), some ⟨Z r (.leaf ⟨false, x⟩), [axialJacobian], false⟩⟩ := by
  simp [A, F, L, D, E, Z, M, V, info, uses, inheritArgs, inherit2, inherit1, inherit, argGrad, isTerminal, pushFront, ginit1, ginit2, mul, unop, add, pow,
      mulL, node2, grouping, addAxial, h1, h3.symm, div, sub, neg, gH, N2, axialNode]

/-- … for the visible bias. -/
noncomputable def gV (s : Term) : Term :=
  .bin .div (.bin .mul (.un .neg (qq (V r s))) (.nelems (F r s))) (N2 r s)

theorem info_V (h2 : r.w ≠ r.vb) (h3 : r.hb ≠ r.vb) (x : Nat) : info r.vb (A r (.leaf ⟨false, x⟩)) =
    ⟨.ok (gV r (.leaf ⟨false, x⟩)), some ⟨V r (.leaf ⟨false, x⟩), [mmJacobian false true (.leaf ⟨false, x⟩) (.tr (.leaf ⟨true, r.vb⟩)) (.ok (.const 0)) (.ok (.tr (.const 1)))], false⟩⟩ := by
  simp [A, F, L, D, E, Z, M, V, info, uses, inheritArgs, inherit2, inherit1, inherit, argGrad, isTerminal, pushBack, ginit1, ginit2, Backprop.cond, mul, unop, add, pow,
      mulL, node2, grouping, h2, h3, div, sub, neg, gV, qq, N2, transpose]

theorem derive_sub {a c ga gc u u' : Term} {l l' : List (Term → Outcome Term)} (ha : info v a = ⟨.ok ga, some ⟨u, l, false⟩⟩)
    (hc : info v c = ⟨.ok gc, some ⟨u', l', false⟩⟩) (hl : l ≠ []) (hl' : l' ≠ []) (hu : u ≠ u') (hac : a ≠ c) (hv : uses v a = true) :
    derive v (.bin .sub a c) = jacobianCall l ga >>= fun d => jacobianCall l' gc >>= fun d' => .ok (sub d d') := by
  simp only [derive, Info.derive, info, ha, hc, hv, inheritArgs, hac, if_false, inherit2, inherit1, inherit, hu, Info.list, argGrad, isTerminal,
    List.isEmpty_eq_false_iff.2 hl, List.isEmpty_eq_false_iff.2 hl', Bool.true_or, if_true, Bool.false_eq_true, Outcome.ok_bind]
  cases jacobianCall l ga with
  | ok d =>
    rw [Outcome.ok_bind, Outcome.ok_bind]
    cases jacobianCall l' gc <;> rfl
  | _ => rfl

noncomputable def dW (s : Term) : Term := .mm true false (.tr s) (gW r s)
noncomputable def dH (s : Term) : Term := .rsum (gH r s)
noncomputable def dV (s : Term) : Term := .bin .mul (.tr (.mm true false (.tr s) (gV r s))) (.tr (.const 1))

theorem derive_W (h1 : r.w ≠ r.hb) (h2 : r.w ≠ r.vb) {x c : Nat} (h : x ≠ c) :
    derive r.w (.bin .sub (A r (.leaf ⟨false, x⟩)) (A r (.leaf ⟨false, c⟩))) = .ok (.bin .sub (dW r (.leaf ⟨false, x⟩)) (dW r (.leaf ⟨false, c⟩))) := by
  rw [derive_sub (info_W r h1 h2 x) (info_W r h1 h2 c) (by simp) (by simp) (by simp [M, h]) (by simp [A, F, L, D, E, Z, M, h]) (by simp [A, F, L, D, E, Z, M, V, uses])]
  simp [jacobianCall, mmJacobian, isZero, matmul, transpose, mul, mulR, add, gW, sub, node2, grouping, dW, h]

theorem derive_H (h1 : r.w ≠ r.hb) (h3 : r.hb ≠ r.vb) {x c : Nat} (h : x ≠ c) :
    derive r.hb (.bin .sub (A r (.leaf ⟨false, x⟩)) (A r (.leaf ⟨false, c⟩))) = .ok (.bin .sub (dH r (.leaf ⟨false, x⟩)) (dH r (.leaf ⟨false, c⟩))) := by
  rw [derive_sub (info_H r h1 h3 x) (info_H r h1 h3 c) (by simp) (by simp) (by simp [Z, M, h]) (by simp [A, F, L, D, E, Z, M, h]) (by simp [A, F, L, D, E, Z, M, V, uses])]
  simp [jacobianCall, axialJacobian, gH, sub, node2, grouping, dH, E, Z, M, h]

theorem derive_V (h2 : r.w ≠ r.vb) (h3 : r.hb ≠ r.vb) {x c : Nat} (h : x ≠ c) :
    derive r.vb (.bin .sub (A r (.leaf ⟨false, x⟩)) (A r (.leaf ⟨false, c⟩))) = .ok (.bin .sub (dV r (.leaf ⟨false, x⟩)) (dV r (.leaf ⟨false, c⟩))) := by
  rw [derive_sub (info_V r h2 h3 x) (info_V r h2 h3 c) (by simp) (by simp) (by simp [V, h]) (by simp [A, F, L, D, E, Z, M, h]) (by simp [A, F, L, D, E, Z, M, V, uses])]
  simp [jacobianCall, mmJacobian, isZero, matmul, transpose, mul, add, gV, sub, node2, grouping, dV, h]

/-! ### Values -/

variable {r}
variable {n m B x c : Nat}

structure Ok (r : RbmVars) (n m B : Nat) (s : Term) (shp : Backprop.Leaf → List Nat) : Prop where
  pos : 0 < n ∧ 0 < m ∧ 0 < B
  weight : shp ⟨true, r.w⟩ = [m, n]
  hbias : shp ⟨true, r.hb⟩ = [m]
  vbias : shp ⟨true, r.vb⟩ = [n]
  typed : Typed shp s
  dims : dims shp s = (n, B)

variable {s : Term}

theorem Ok.M (h : Ok r n m B s shp) : Typed shp (M r s) ∧ Spec.dims shp (M r s) = (m, B) ∧
    ∀ i j, den shp val (Rb.M r s) i j = ∑ z ∈ range n, den shp val s z j * val ⟨true, r.w⟩ i z := by
  refine ⟨⟨h.typed, ⟨m, n, h.pos.2.1, h.pos.1, .inl h.weight⟩, ?_⟩, ?_, fun i j => ?_⟩
  · rw [h.dims]; simp [Spec.dims, h.weight, leafSize]
  · show (_, (Spec.dims shp s).2) = _
    rw [h.dims]; simp [Spec.dims, h.weight, leafSize]
  · show ∑ z ∈ range (Spec.dims shp s).1, _ = _
    rw [h.dims]; rfl

/-- The input of hidden unit `i`. -/
noncomputable def zz (r : RbmVars) (val : Backprop.Leaf → Nat → Nat → ℝ) (n : Nat) (y : Nat → Nat → ℝ) (i j : Nat) : ℝ :=
  ∑ z ∈ range n, y z j * val ⟨true, r.w⟩ i z + val ⟨true, r.hb⟩ i 0

theorem Ok.Z (h : Ok r n m B s shp) : Typed shp (Z r s) ∧ Spec.dims shp (Rb.Z r s) = (m, B) ∧
    ∀ i j, den shp val (Rb.Z r s) i j = zz r val n (den shp val s) i j := by
  obtain ⟨h1, h2, h3⟩ := h.M (val := val)
  refine ⟨⟨h1, trivial, _, rfl, ?_⟩, h2, fun i j => ?_⟩
  · rw [h2, h.hbias]
  · show den shp val (Rb.M r _) i j + val _ i 0 = _
    rw [h3]; rfl

theorem Ok.E (h : Ok r n m B s shp) : Typed shp (E r s) ∧ Spec.dims shp (Rb.E r s) = (m, B) ∧
    ∀ i j, den shp val (Rb.E r s) i j = Real.exp (zz r val n (den shp val s) i j) := by
  obtain ⟨h1, h2, h3⟩ := h.Z (val := val)
  refine ⟨⟨h1, by simp⟩, h2, fun i j => ?_⟩
  rw [← h3]; rfl

theorem Ok.D (h : Ok r n m B s shp) : Typed shp (D r s) ∧ Spec.dims shp (Rb.D r s) = (m, B) ∧
    ∀ i j, den shp val (Rb.D r s) i j = 1 + Real.exp (zz r val n (den shp val s) i j) := by
  obtain ⟨h1, h2, h3⟩ := h.E (val := val)
  refine ⟨⟨h1, by simp⟩, h2, fun i j => ?_⟩
  rw [← h3]; rfl

theorem Ok.V (h : Ok r n m B s shp) : Typed shp (V r s) ∧ Spec.dims shp (Rb.V r s) = (1, B) ∧
    ∀ j, den shp val (Rb.V r s) 0 j = ∑ z ∈ range n, den shp val s z j * val ⟨true, r.vb⟩ z 0 := by
  refine ⟨⟨h.typed, ⟨n, 1, h.pos.1, by decide, .inr ⟨rfl, h.vbias⟩⟩, ?_⟩, ?_, fun j => ?_⟩
  · rw [h.dims]; simp [Spec.dims, h.vbias, leafSize]
  · show (_, (Spec.dims shp s).2) = _
    rw [h.dims]; simp [Spec.dims, h.vbias, leafSize]
  · show ∑ z ∈ range (Spec.dims shp s).1, _ = _
    rw [h.dims]; rfl

theorem Ok.S (h : Ok r n m B s shp) : Typed shp (.sum0 (L r s)) ∧ Spec.dims shp (.sum0 (L r s)) = (B, 1) ∧
    ∀ j, den shp val (.sum0 (L r s)) j 0 = ∑ i ∈ range m, Real.log (1 + Real.exp (zz r val n (den shp val s) i j)) := by
  obtain ⟨h1, h2, h3⟩ := h.D (val := val)
  refine ⟨⟨h1, by simp⟩, ?_, fun j => ?_⟩
  · show ((Spec.dims shp (Rb.D r s)).2, 1) = _
    rw [h2]
  · show ∑ z ∈ range (Spec.dims shp (Rb.D r s)).1, Real.log (den shp val (Rb.D r s) z j) = _
    rw [h2]
    simp only [h3]

theorem Ok.F (h : Ok r n m B s shp) : Typed shp (F r s) ∧ Spec.dims shp (Rb.F r s) = (1, B) ∧
    ∀ j, j < B → den shp val (Rb.F r s) 0 j = (machine r n m val).freeEnergy (fun z => den shp val s z j) := by
  obtain ⟨h1, h2, h3⟩ := h.S (val := val)
  obtain ⟨g1, g2, g3⟩ := h.V (val := val)
  refine ⟨⟨⟨h1, .inl g1, .inr (.inr (.inr ⟨trivial, ?_⟩))⟩, by simp⟩, ?_, fun j hj => ?_⟩
  · rw [g2, h2]
  · show meet (Spec.dims shp (.sum0 (L r s))) (Spec.dims shp (Rb.V r s)) = _
    rw [h2, g2]; unfold meet
    split_ifs with hh
    · injection hh with _ hh; rw [hh]
    · rfl
  · show -den shp val (.bin .add (.sum0 (L r s)) (Rb.V r s)) 0 j = _
    rw [den_row h2 g2 j hj, h3, g3]
    simp only [Expr.K2.fn, Boltzmann.freeEnergy, machine, zz]
    rw [neg_add, sub_eq_add_neg]
    congr 2
    exact sum_congr rfl (fun z _ => mul_comm _ _)

theorem Ok.N (h : Ok r n m B s shp) : Typed shp (.nelems (Rb.F r s)) ∧ Spec.dims shp (.nelems (Rb.F r s)) = (1, 1) ∧
    ∀ i j, den shp val (.nelems (Rb.F r s)) i j = B := by
  obtain ⟨h1, h2, h3⟩ := h.F (val := val)
  refine ⟨h1, rfl, fun i j => ?_⟩
  simp only [den]; rw [h2]; simp

theorem Ok.A (h : Ok r n m B s shp) : Typed shp (A r s) ∧ Spec.dims shp (Rb.A r s) = (1, 1) ∧
    den shp val (Rb.A r s) 0 0 = (machine r n m val).meanFree B (fun z j => den shp val s z j) := by
  obtain ⟨h1, h2, h3⟩ := h.F (val := val)
  obtain ⟨n1, n2, n3⟩ := h.N (val := val)
  refine ⟨⟨h1, .inl h1, .inl rfl⟩, rfl, ?_⟩
  unfold Rb.A
  rw [den_bin (by rfl), n3]
  simp only [Expr.K2.fn, Boltzmann.meanFree, den]
  rw [h2]
  simp only [sum_range_one]
  congr 1
  exact sum_congr rfl (fun j hj => h3 j (mem_range.1 hj))

theorem den_binAx {k : Expr.K2} {axis : Nat} {a b : Term} (h : Spec.dims shp b = (1, 1)) (i j : Nat) :
    den shp val (.binAx k axis false a b) i j = k.fn (den shp val a i j) (den shp val b 0 0) := by
  simp only [den]; rw [if_pos h]

theorem exp_div (x : ℝ) : Real.exp x / (1 + Real.exp x) = logistic x := by
  unfold logistic
  rw [Real.exp_neg]
  have := Real.exp_pos x
  field_simp
  rw [add_comm]

theorem Ok.N2 (h : Ok r n m B s shp) : Typed shp (N2 r s) ∧ Spec.dims shp (Rb.N2 r s) = (1, 1) ∧
    ∀ i j, den shp val (Rb.N2 r s) i j = (B : ℝ) ^ 2 := by
  obtain ⟨n1, n2, n3⟩ := h.N (val := val)
  refine ⟨⟨n1, by simp⟩, rfl, fun i j => ?_⟩
  rw [← n3 i j]
  exact Real.rpow_two _

theorem div_sq (h : 0 < B) (y : ℝ) : -y * (B : ℝ) / (B : ℝ) ^ 2 = -y / B := by
  have : (B : ℝ) ≠ 0 := by exact_mod_cast h.ne'
  field_simp

theorem Ok.gH (h : Ok r n m B s shp) : Typed shp (gH r s) ∧ Spec.dims shp (Rb.gH r s) = (m, B) ∧
    ∀ i j, i < m → j < B → den shp val (Rb.gH r s) i j = -logistic (zz r val n (den shp val s) i j) / B := by
  obtain ⟨e1, e2, e3⟩ := h.E (val := val)
  obtain ⟨d1, d2, d3⟩ := h.D (val := val)
  obtain ⟨n1, n2, n3⟩ := h.N (val := val)
  obtain ⟨q1, q2, q3⟩ := h.N2 (val := val)
  have hb : Spec.dims shp (.binAx .mul 0 false (.un .neg (.grp 0 (.bin .div (Rb.E r s) (Rb.D r s)))) (.nelems (Rb.F r s))) = (m, B) := by
    show Spec.dims shp (.bin .div (Rb.E r s) (Rb.D r s)) = _
    rw [dims_bin (e2.trans d2.symm), e2]
  refine ⟨⟨⟨⟨⟨⟨e1, .inl d1, .inl (e2.trans d2.symm)⟩, rfl⟩, by simp⟩, n1, rfl, rfl, .inl rfl⟩, .inl q1, .inr (.inr (.inl rfl))⟩, ?_, fun i j hi hj => ?_⟩
  · unfold Rb.gH
    rw [dims_scalar q2, hb]
  · unfold Rb.gH
    rw [den_scalar q2 i j (by rw [hb]; exact hi) (by rw [hb]; exact hj), q3]
    rw [den_binAx n2]
    have : den shp val (.bin .div (Rb.E r s) (Rb.D r s)) i j = logistic (zz r val n (den shp val s) i j) := by
      rw [den_bin (e2.trans d2.symm), e3, d3, ← exp_div]; rfl
    rw [← div_sq h.pos.2.2, ← this, ← n3 0 0]
    rfl

theorem Ok.qq {t : Term} {a b : Nat} (ht : Typed shp t) (hd : Spec.dims shp t = (a, b)) : Typed shp (qq t) ∧ Spec.dims shp (Rb.qq t) = (a, b) ∧
    ∀ i j, den shp val (Rb.qq t) i j = 1 := by
  refine ⟨⟨ht, .inl ht, .inl rfl⟩, ?_, fun i j => ?_⟩
  · unfold Rb.qq; rw [dims_bin rfl, hd]
  · unfold Rb.qq; rw [den_bin rfl]; simp [Expr.K2.fn, Expr.ofCmp, eqCmp]

theorem Ok.gW (h : Ok r n m B s shp) : Typed shp (gW r s) ∧ Spec.dims shp (Rb.gW r s) = (m, B) ∧
    ∀ i j, i < m → j < B → den shp val (Rb.gW r s) i j = -logistic (zz r val n (den shp val s) i j) / B := by
  obtain ⟨e1, e2, e3⟩ := h.E (val := val)
  obtain ⟨d1, d2, d3⟩ := h.D (val := val)
  obtain ⟨n1, n2, n3⟩ := h.N (val := val)
  obtain ⟨q1, q2, q3⟩ := h.N2 (val := val)
  obtain ⟨m1, m2, _⟩ := h.M (val := val)
  obtain ⟨o1, o2, o3⟩ := Ok.qq (val := val) m1 m2
  have p2 := (dims_bin (k := .mul) (o2.trans e2.symm)).trans o2
  have hb : Spec.dims shp (.binAx .mul 0 false (.un .neg (.grp 0 (.bin .div (.bin .mul (Rb.qq (Rb.M r s)) (Rb.E r s)) (Rb.D r s)))) (.nelems (Rb.F r s))) = (m, B) := by
    show Spec.dims shp (.bin .div (.bin .mul (Rb.qq (Rb.M r s)) (Rb.E r s)) (Rb.D r s)) = _
    rw [dims_bin (p2.trans d2.symm), p2]
  refine ⟨⟨⟨⟨⟨⟨⟨o1, .inl e1, .inl (o2.trans e2.symm)⟩, .inl d1, .inl (p2.trans d2.symm)⟩, rfl⟩, by simp⟩, n1, rfl, rfl, .inl rfl⟩, .inl q1, .inr (.inr (.inl rfl))⟩, ?_, fun i j hi hj => ?_⟩
  · unfold Rb.gW
    rw [dims_scalar q2, hb]
  · unfold Rb.gW
    rw [den_scalar q2 i j (by rw [hb]; exact hi) (by rw [hb]; exact hj), q3]
    rw [den_binAx n2]
    have : den shp val (.bin .div (.bin .mul (Rb.qq (Rb.M r s)) (Rb.E r s)) (Rb.D r s)) i j = logistic (zz r val n (den shp val s) i j) := by
      rw [den_bin (p2.trans d2.symm), den_bin (o2.trans e2.symm), o3, e3, d3, ← exp_div]
      simp [Expr.K2.fn]
    rw [← div_sq h.pos.2.2, ← this, ← n3 0 0]
    rfl

theorem Ok.gV (h : Ok r n m B s shp) : Typed shp (gV r s) ∧ Spec.dims shp (Rb.gV r s) = (1, B) ∧
    ∀ j, j < B → den shp val (Rb.gV r s) 0 j = -1 / B := by
  obtain ⟨n1, n2, n3⟩ := h.N (val := val)
  obtain ⟨q1, q2, q3⟩ := h.N2 (val := val)
  obtain ⟨m1, m2, _⟩ := h.V (val := val)
  obtain ⟨o1, o2, o3⟩ := Ok.qq (val := val) m1 m2
  have hb := dims_scalar (k := .mul) (a := .un .neg (Rb.qq (Rb.V r s))) n2
  have ho : Spec.dims shp (.un .neg (Rb.qq (Rb.V r s))) = (1, B) := o2
  refine ⟨⟨⟨⟨o1, by simp⟩, .inl n1, .inr (.inr (.inl rfl))⟩, .inl q1, .inr (.inr (.inl rfl))⟩, ?_, fun j hj => ?_⟩
  · unfold Rb.gV
    rw [dims_scalar q2, hb, ho]
  · unfold Rb.gV
    rw [den_scalar q2 0 j (by rw [hb, ho]; simp) (by rw [hb, ho]; exact hj), q3,
      den_scalar n2 0 j (by rw [ho]; simp) (by rw [ho]; exact hj), n3]
    have := div_sq h.pos.2.2 1
    rw [← this, ← o3 0 j]
    rfl

theorem Ok.dW (h : Ok r n m B s shp) : Typed shp (dW r s) ∧ Spec.dims shp (Rb.dW r s) = (m, n) ∧
    ∀ p q, p < m → den shp val (Rb.dW r s) p q = -(∑ j ∈ range B, den shp val s q j * logistic (zz r val n (den shp val s) p j)) / B := by
  obtain ⟨g1, g2, g3⟩ := h.gW (val := val)
  have hs := h.dims
  refine ⟨⟨h.typed, g1, ?_⟩, ?_, fun p q hp => ?_⟩
  · show (Spec.dims shp s).2 = _
    rw [hs, g2]
  · show ((Spec.dims shp (Rb.gW r s)).1, (Spec.dims shp s).1) = _
    rw [hs, g2]
  · show ∑ j ∈ range (Spec.dims shp s).2, den shp val s q j * den shp val (Rb.gW r s) p j = _
    rw [hs, neg_div, sum_div, ← sum_neg_distrib]
    refine sum_congr rfl (fun j hj => ?_)
    rw [g3 p j hp (mem_range.1 hj)]
    ring

theorem Ok.dH (h : Ok r n m B s shp) : Typed shp (dH r s) ∧ Spec.dims shp (Rb.dH r s) = (m, 1) ∧
    ∀ p q, p < m → den shp val (Rb.dH r s) p q = -(∑ j ∈ range B, logistic (zz r val n (den shp val s) p j)) / B := by
  obtain ⟨g1, g2, g3⟩ := h.gH (val := val)
  refine ⟨g1, ?_, fun p q hp => ?_⟩
  · show ((Spec.dims shp (Rb.gH r s)).1, 1) = _
    rw [g2]
  · show ∑ j ∈ range (Spec.dims shp (Rb.gH r s)).2, den shp val (Rb.gH r s) p j = _
    rw [g2, neg_div, sum_div, ← sum_neg_distrib]
    refine sum_congr rfl (fun j hj => ?_)
    rw [g3 p j hp (mem_range.1 hj)]
    ring

theorem Ok.dV (h : Ok r n m B s shp) : Typed shp (dV r s) ∧ Spec.dims shp (Rb.dV r s) = (n, 1) ∧
    ∀ p q, p < n → q < 1 → den shp val (Rb.dV r s) p q = -(∑ j ∈ range B, den shp val s p j) / B := by
  obtain ⟨g1, g2, g3⟩ := h.gV (val := val)
  have hs := h.dims
  have hm : Spec.dims shp (.tr (.mm true false (.tr s) (Rb.gV r s))) = (n, 1) := by
    show ((Spec.dims shp s).1, (Spec.dims shp (Rb.gV r s)).1) = _
    rw [hs, g2]
  have hc : Spec.dims shp (.tr (.const 1)) = (1, 1) := rfl
  refine ⟨⟨⟨h.typed, g1, ?_⟩, .inr ⟨1, rfl⟩, .inr (.inr (.inl rfl))⟩, ?_, fun p q hp hq => ?_⟩
  · show (Spec.dims shp s).2 = _
    rw [hs, g2]
  · unfold Rb.dV
    rw [dims_scalar hc, hm]
  · obtain rfl : q = 0 := by omega
    unfold Rb.dV
    rw [den_scalar hc p 0 (by rw [hm]; exact hp) (by rw [hm]; exact hq)]
    show (∑ j ∈ range (Spec.dims shp s).2, den shp val s p j * den shp val (Rb.gV r s) 0 j) * 1 = _
    rw [hs, neg_div, sum_div, ← sum_neg_distrib, mul_one]
    refine sum_congr rfl (fun j hj => ?_)
    rw [g3 j (mem_range.1 hj)]
    ring

theorem Ok.of (h : RbmFits r n m B x c shp) : Ok r n m B (.leaf ⟨false, x⟩) shp ∧ Ok r n m B (.leaf ⟨false, c⟩) shp := by
  refine ⟨⟨h.pos, h.weight, h.hbias, h.vbias, ⟨n, B, h.pos.1, h.pos.2.2, h.input⟩, ?_⟩, ⟨h.pos, h.weight, h.hbias, h.vbias, ⟨n, B, h.pos.1, h.pos.2.2, h.chain⟩, ?_⟩⟩
  · rcases h.input with h | ⟨hB, h⟩ <;> simp only [Spec.dims, h, leafSize]
    rw [hB]
  · rcases h.chain with h | ⟨hB, h⟩ <;> simp only [Spec.dims, h, leafSize]
    rw [hB]

/-- The difference of two such values. -/
theorem is_diff {a b : Term} {k l : Nat} {f g : Nat → Nat → ℝ} (ha : Typed shp a) (hb : Typed shp b) (da : Spec.dims shp a = (k, l))
    (db : Spec.dims shp b = (k, l)) (fa : ∀ p q, p < k → q < l → den shp val a p q = f p q) (fb : ∀ p q, p < k → q < l → den shp val b p q = g p q) :
    Is shp val (.bin .sub a b) k l (fun p q => f p q - g p q) := by
  refine .inr ⟨⟨ha, .inl hb, .inl (da.trans db.symm)⟩, (dims_bin (da.trans db.symm)).trans da, fun p q hp hq => ?_⟩
  rw [den_bin (da.trans db.symm), fa p q hp hq, fb p q hp hq]; rfl

/-! ### On paper -/

theorem log_deriv {f : ℝ → ℝ} {f' t : ℝ} (h : HasDerivAt f f' t) :
    HasDerivAt (fun t => Real.log (1 + Real.exp (f t))) (logistic (f t) * f') t := by
  have h1 := (h.exp.const_add 1).log (by positivity)
  refine h1.congr_deriv ?_
  rw [← exp_div]; ring

/-- The derivative of the free energy along a curve of machines. -/
theorem free_deriv {M : ℝ → Boltzmann} {k l : Nat} (hm : ∀ t, (M t).m = k) (hn : ∀ t, (M t).n = l) {v : Nat → ℝ} {t : ℝ} {dz : Nat → ℝ} {dv : Nat → ℝ}
    (hz : ∀ i < k, HasDerivAt (fun t => ∑ z ∈ range l, v z * (M t).W i z + (M t).hb i) (dz i) t)
    (hv : ∀ z < l, HasDerivAt (fun t => (M t).vb z) (dv z) t) :
    HasDerivAt (fun t => (M t).freeEnergy v)
      (-(∑ i ∈ range k, logistic (∑ z ∈ range l, v z * (M t).W i z + (M t).hb i) * dz i) - ∑ z ∈ range l, dv z * v z) t := by
  have h1 := HasDerivAt.fun_sum (fun i hi => log_deriv (hz i (mem_range.1 hi)))
  have h2 := HasDerivAt.fun_sum (fun z hz => (hv z (mem_range.1 hz)).mul_const (v z))
  refine (h1.fun_neg.fun_sub h2).congr_of_eventuallyEq (Filter.Eventually.of_forall fun t => ?_)
  simp only [Boltzmann.freeEnergy, hm, hn]

theorem mean_deriv {M : ℝ → Boltzmann} {v : Nat → Nat → ℝ} {t : ℝ} {d : Nat → ℝ}
    (h : ∀ j < B, HasDerivAt (fun t => (M t).freeEnergy (fun z => v z j)) (d j) t) :
    HasDerivAt (fun t => (M t).meanFree B v) ((∑ j ∈ range B, d j) / B) t :=
  (HasDerivAt.fun_sum (fun j hj => h j (mem_range.1 hj))).div_const _

theorem setAt_self (p q : Nat) : setAt val v p q (val ⟨true, v⟩ p q) = val := by
  funext l i j
  unfold setAt
  split_ifs with h
  · obtain ⟨rfl, rfl, rfl⟩ := h; rfl
  · rfl

theorem setAt_deriv (p q : Nat) (l : Backprop.Leaf) (i j : Nat) (t : ℝ) :
    HasDerivAt (fun t => setAt val v p q t l i j) (if l = ⟨true, v⟩ ∧ i = p ∧ j = q then 1 else 0) t := by
  unfold setAt
  split_ifs
  · exact hasDerivAt_id t
  · exact hasDerivAt_const t _

/-- Derivative of the free energy of one vector in one entry of a variable. -/
theorem free_entry (r : RbmVars) (n m p q : Nat) (y : Nat → ℝ) :
    HasDerivAt (fun t => (machine r n m (setAt val v p q t)).freeEnergy y)
      (-(∑ i ∈ range m, logistic (∑ z ∈ range n, y z * val ⟨true, r.w⟩ i z + val ⟨true, r.hb⟩ i 0) *
          (∑ z ∈ range n, y z * (if (⟨true, r.w⟩ : Backprop.Leaf) = ⟨true, v⟩ ∧ i = p ∧ z = q then 1 else 0) +
            (if (⟨true, r.hb⟩ : Backprop.Leaf) = ⟨true, v⟩ ∧ i = p ∧ 0 = q then 1 else 0))) -
        ∑ z ∈ range n, (if (⟨true, r.vb⟩ : Backprop.Leaf) = ⟨true, v⟩ ∧ z = p ∧ 0 = q then 1 else 0) * y z) (val ⟨true, v⟩ p q) := by
  have := free_deriv (M := fun t => machine r n m (setAt val v p q t)) (k := m) (l := n) (fun _ => rfl) (fun _ => rfl) (v := y)
    (t := val ⟨true, v⟩ p q)
    (fun i _ => (HasDerivAt.fun_sum (u := range n) (fun z _ => (setAt_deriv p q ⟨true, r.w⟩ i z _).const_mul (y z))).fun_add (setAt_deriv p q ⟨true, r.hb⟩ i 0 _))
    (fun z _ => setAt_deriv p q ⟨true, r.vb⟩ z 0 _)
  simp only [machine, setAt_self] at this
  exact this

theorem mean_W (h1 : r.w ≠ r.hb) (h2 : r.w ≠ r.vb) (n m B p q : Nat) (hp : p < m) (hq : q < n) (s : Nat) :
    HasDerivAt (fun t => (machine r n m (setAt val r.w p q t)).meanFree B (fun z j => val ⟨false, s⟩ z j))
      (-(∑ j ∈ range B, val ⟨false, s⟩ q j * logistic (zz r val n (val ⟨false, s⟩) p j)) / B) (val ⟨true, r.w⟩ p q) := by
  refine (mean_deriv (fun j _ => free_entry r n m p q (fun z => val ⟨false, s⟩ z j))).congr_deriv ?_
  rw [← sum_neg_distrib]
  congr 1
  refine sum_congr rfl (fun j _ => ?_)
  simp only [Backprop.Leaf.mk.injEq, true_and, h1.symm, h2.symm, false_and, if_false, zero_mul, sum_const_zero, sub_zero, add_zero]
  rw [sum_eq_single p]
  · simp [hq, zz, mul_comm]
  · intro i _ hi; simp [hi]
  · intro h; exact absurd (mem_range.2 hp) h

theorem mean_H (h1 : r.w ≠ r.hb) (h3 : r.hb ≠ r.vb) (n m B p : Nat) (hp : p < m) (s : Nat) :
    HasDerivAt (fun t => (machine r n m (setAt val r.hb p 0 t)).meanFree B (fun z j => val ⟨false, s⟩ z j))
      (-(∑ j ∈ range B, logistic (zz r val n (val ⟨false, s⟩) p j)) / B) (val ⟨true, r.hb⟩ p 0) := by
  refine (mean_deriv (fun j _ => free_entry r n m p 0 (fun z => val ⟨false, s⟩ z j))).congr_deriv ?_
  rw [← sum_neg_distrib]
  congr 1
  refine sum_congr rfl (fun j _ => ?_)
  simp only [Backprop.Leaf.mk.injEq, true_and, h1, h3.symm, false_and, if_false, zero_mul, mul_zero, sum_const_zero, sub_zero, zero_add, and_true]
  rw [sum_eq_single p]
  · simp [zz]
  · intro i _ hi; simp [hi]
  · intro h; exact absurd (mem_range.2 hp) h

theorem mean_V (h2 : r.w ≠ r.vb) (h3 : r.hb ≠ r.vb) (n m B p : Nat) (hp : p < n) (s : Nat) :
    HasDerivAt (fun t => (machine r n m (setAt val r.vb p 0 t)).meanFree B (fun z j => val ⟨false, s⟩ z j))
      (-(∑ j ∈ range B, val ⟨false, s⟩ p j) / B) (val ⟨true, r.vb⟩ p 0) := by
  refine (mean_deriv (fun j _ => free_entry r n m p 0 (fun z => val ⟨false, s⟩ z j))).congr_deriv ?_
  rw [← sum_neg_distrib]
  congr 1
  refine sum_congr rfl (fun j _ => ?_)
  simp only [Backprop.Leaf.mk.injEq, true_and, h2, h3, false_and, if_false, mul_zero, sum_const_zero, add_zero, neg_zero, zero_sub, and_true]
  rw [sum_eq_single p]
  · simp
  · intro i _ hi; simp [hi]
  · intro h; exact absurd (mem_range.2 hp) h

end Rb
end Verif.Props
