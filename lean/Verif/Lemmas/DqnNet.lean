import Verif.Spec.DqnNet
import Verif.Lemmas.Rbm
/-!
# The error of a deep-Q agent and its gradient
-/
namespace Verif.Props
open Spec Backprop Finset
open scoped Classical
variable {shp : Backprop.Leaf → List Nat} {val : Backprop.Leaf → Nat → Nat → ℝ} {v : Nat}

namespace Qn

theorem free_ph (z : Nat) : Free v (.leaf ⟨false, z⟩) := fun h => by injection h with h _; cases h

theorem typed_pow2 {a : Term} (h : Typed shp a) : pow a 2 = .un (.pow 2) a := by
  unfold pow; rw [if_neg (by norm_num), if_neg (by norm_num), unop_nc h.nc]

/-- The pieces of the error, for the output `o` of the source network and the expected values `f`. -/
def M (S : QSetup) (o : Term) : Term := .bin .mul (.un .ident o) (.leaf ⟨false, S.net.omask⟩)
noncomputable def td (S : QSetup) (o f : Term) : Term := .bin .sub (.sum0 (M S o)) f
noncomputable def P (S : QSetup) (o f : Term) : Term := .un (.pow 2) (td S o f)
noncomputable def E (S : QSetup) (o f : Term) : Term := .bin .div (.sumAll (P S o f)) (.nelems (P S o f))

/-- What the parts are. -/
structure Parts (S : QSetup) (shp : Backprop.Leaf → List Nat) (o f : Term) : Prop where
  pos : 0 < S.B
  otyped : Typed shp o
  odims : dims shp o = (S.acts, S.B)
  ftyped : Typed shp f
  fdims : dims shp f = (S.B, 1)
  fvec : IsVec shp f
  mask : shp ⟨false, S.net.omask⟩ = [S.acts, S.B]

variable {S : QSetup} {o f : Term}

theorem Parts.mask_typed (h : Parts S shp o f) : Typed shp (.leaf ⟨false, S.net.omask⟩) ∧ dims shp (.leaf ⟨false, S.net.omask⟩) = (S.acts, S.B) := by
  have := (typed_pos h.otyped).1
  rw [h.odims] at this
  exact ⟨⟨_, _, this, h.pos, .inl h.mask⟩, by simp only [dims, h.mask, leafSize]⟩

theorem Parts.M (h : Parts S shp o f) : Typed shp (M S o) ∧ dims shp (Qn.M S o) = (S.acts, S.B) ∧
    ∀ val i j, den shp val (Qn.M S o) i j = den shp val o i j * val ⟨false, S.net.omask⟩ i j := by
  obtain ⟨m1, m2⟩ := h.mask_typed
  have hd : dims shp (.un .ident o) = dims shp (.leaf ⟨false, S.net.omask⟩) := h.odims.trans m2.symm
  refine ⟨⟨⟨h.otyped, by simp⟩, .inl m1, .inl hd⟩, (dims_bin hd).trans h.odims, fun val i j => ?_⟩
  unfold Qn.M
  rw [den_bin hd]; rfl

theorem Parts.td (h : Parts S shp o f) : Typed shp (td S o f) ∧ dims shp (Qn.td S o f) = (S.B, 1) ∧ IsVec shp (Qn.td S o f) ∧
    ∀ val j, den shp val (Qn.td S o f) j 0 = (∑ i ∈ range S.acts, den shp val (Qn.M S o) i j) - den shp val f j 0 := by
  obtain ⟨m1, m2, _⟩ := h.M
  have hd : dims shp (.sum0 (Qn.M S o)) = dims shp f := by
    rw [h.fdims]; show ((dims shp (Qn.M S o)).2, 1) = _; rw [m2]
  refine ⟨⟨m1, .inl h.ftyped, .inl hd⟩, (dims_bin hd).trans (hd.trans h.fdims), ⟨trivial, h.fvec⟩, fun val j => ?_⟩
  unfold Qn.td
  rw [den_bin hd]
  show (∑ i ∈ range (dims shp (Qn.M S o)).1, _) - _ = _
  rw [m2]

theorem Parts.P (h : Parts S shp o f) : Typed shp (P S o f) ∧ dims shp (Qn.P S o f) = (S.B, 1) ∧
    ∀ val j, den shp val (Qn.P S o f) j 0 = den shp val (Qn.td S o f) j 0 ^ 2 := by
  obtain ⟨t1, t2, _, _⟩ := h.td
  exact ⟨⟨t1, by simp⟩, t2, fun val j => Real.rpow_two _⟩

theorem Parts.N (h : Parts S shp o f) : Typed shp (.nelems (Qn.P S o f)) ∧ dims shp (.nelems (Qn.P S o f)) = (1, 1) ∧
    ∀ val i j, den shp val (.nelems (Qn.P S o f)) i j = S.B := by
  obtain ⟨t1, t2, _⟩ := h.P
  refine ⟨t1, rfl, fun val i j => ?_⟩
  simp only [den]; rw [t2]; simp

theorem Parts.E (h : Parts S shp o f) : Typed shp (E S o f) ∧ dims shp (Qn.E S o f) = (1, 1) ∧
    ∀ val, den shp val (Qn.E S o f) 0 0 = (∑ j ∈ range S.B, ((∑ i ∈ range S.acts, den shp val (Qn.M S o) i j) - den shp val f j 0) ^ 2) / S.B := by
  obtain ⟨t1, t2, t3⟩ := h.P
  obtain ⟨n1, n2, n3⟩ := h.N
  obtain ⟨_, _, _, d3⟩ := h.td
  refine ⟨⟨t1, .inl n1, .inl rfl⟩, rfl, fun val => ?_⟩
  unfold Qn.E
  rw [den_bin (a := .sumAll (Qn.P S o f)) (b := .nelems (Qn.P S o f)) rfl, n3]
  show (∑ i ∈ range (dims shp (Qn.P S o f)).1, ∑ j ∈ range (dims shp (Qn.P S o f)).2, _) / _ = _
  rw [t2]
  simp only [sum_range_one, t3, d3]

theorem error_eq (h : Parts S shp o f) (hne : ∀ a, f ≠ .sum0 a) :
    reduceMean (pow (sub (.sum0 (mul (unop .ident o) (.leaf ⟨false, S.net.omask⟩))) f) 2) = .ok (Qn.E S o f) := by
  obtain ⟨m1, m2, _⟩ := h.M
  have e1 : mul (unop .ident o) (.leaf ⟨false, S.net.omask⟩) = Qn.M S o := by
    rw [unop_nc h.otyped.nc]
    exact mul_nc (by simp) ⟨h.otyped, by simp⟩ h.mask_typed.1
  have e2 : sub (.sum0 (Qn.M S o)) f = Qn.td S o f := by
    unfold sub
    rw [if_neg (fun h => hne _ h.symm)]
    have := node2_typed (k := .sub) (shp := shp) (a := .sum0 (Qn.M S o)) m1 h.ftyped
    unfold Qn.td
    rw [← this]
    have hf := h.ftyped.nc
    cases f <;> first | rfl | exact absurd rfl (hf _)
  rw [e1, e2, typed_pow2 h.td.1]
  unfold reduceMean div
  rw [if_neg (by simp)]
  rfl

/-- The root that the transfer functions of the network are called with. -/
noncomputable def gP (S : QSetup) (o f gM : Term) : Term := .binAx .mul 0 false (.un (.mulL 2) (.grp 0 gM)) (td S o f)
noncomputable def R (S : QSetup) (o f gM : Term) : Term :=
  .bin .div (.bin .mul (gP S o f gM) (.nelems (P S o f))) (.un (.pow 2) (.nelems (P S o f)))

/-- The gradient of the error before the transfer functions, and the list of those. -/
theorem info_E (h : Parts S shp o f) {k gM : Term} {c' : Four} {gf : Nat → Nat → ℝ} (hM : Inv shp val v k c' (Qn.M S o) gf)
    (hg : (info v (Qn.M S o)).grad = .ok gM) (hf : Free v f) :
    (info v (Qn.E S o f)).grad = .ok (R S o f gM) ∧ (info v (Qn.E S o f)).list = (info v k).list := by
  obtain ⟨f1, f2⟩ := info_free hf
  have hu := hM.used
  have hs : info v (.sum0 (Qn.M S o)) = ⟨.ok (.grp 0 gM), inherit1 (info v (Qn.M S o)).jac⟩ := by
    rw [info]; rw [if_pos hu, hg]; rfl
  have hne : (Term.sum0 (Qn.M S o)) ≠ f := by
    rintro rfl
    have := free_uses.1 hf
    simp only [uses] at this
    rw [hu] at this; cases this
  have hut : uses v (Qn.td S o f) = true := by simp [Qn.td, uses, hu]
  have htd : info v (Qn.td S o f) = ⟨.ok (.grp 0 gM), inherit1 (info v (Qn.M S o)).jac⟩ := by
    have hj : inheritArgs (.sum0 (Qn.M S o)) f (inherit1 (info v (Qn.M S o)).jac) (info v f).jac = inherit1 (info v (Qn.M S o)).jac := by
      unfold inheritArgs; rw [if_neg hne, f2, inherit2_none_right, inherit1_idem]
    unfold Qn.td
    rw [info, hs]
    simp only [hj]
    rw [if_pos (by simp [uses, hu])]
    simp only [argGrad, inherit1_not_terminal, Bool.false_eq_true, if_false, f1, Outcome.ok_bind, ginit2]
    simp [sub]
  have hgP : mul (mulL 2 (.grp 0 gM)) (pow (Qn.td S o f) (2 - 1)) = Qn.gP S o f gM := by
    have e1 : pow (Qn.td S o f) (2 - 1) = Qn.td S o f := by unfold pow; rw [if_neg (by norm_num), if_pos (by norm_num)]
    have e2 : mulL 2 (.grp 0 gM) = .un (.mulL 2) (.grp 0 gM) := by
      rw [mulL_nc 2 (by simp)]
      rw [if_neg (by norm_num), if_neg (by norm_num), if_neg (by norm_num)]
    rw [e1, e2]
    unfold mul
    rw [if_neg (by simp [Qn.td])]
    show node2 .mul (.un (.mulL 2) (.grp 0 gM)) (Qn.td S o f) = _
    unfold node2
    have : grouping (Qn.td S o f) = none := rfl
    rw [this]; rfl
  have hP : info v (Qn.P S o f) = ⟨.ok (Qn.gP S o f gM), inherit1 (info v (Qn.M S o)).jac⟩ := by
    unfold Qn.P
    rw [info, htd, if_pos hut]
    simp only [Outcome.ok_bind, ginit1]
    rw [hgP, inherit1_idem]
  have huP : uses v (Qn.P S o f) = true := hut
  have hS : info v (.sumAll (Qn.P S o f)) = ⟨.ok (Qn.gP S o f gM), inherit1 (info v (Qn.M S o)).jac⟩ := by
    rw [info, hP, if_pos huP]
    simp only [inherit1_idem]
  have hN : info v (.nelems (Qn.P S o f)) = ⟨.ok (.const 0), none⟩ := by rw [info]
  have hj : inheritArgs (.sumAll (Qn.P S o f)) (.nelems (Qn.P S o f)) (inherit1 (info v (Qn.M S o)).jac) none = inherit1 (info v (Qn.M S o)).jac := by
    unfold inheritArgs; rw [if_neg (by simp), inherit2_none_right, inherit1_idem]
  have hE : info v (Qn.E S o f) = ⟨.ok (R S o f gM), inherit1 (info v (Qn.M S o)).jac⟩ := by
    unfold Qn.E
    rw [info, hS, hN]
    simp only [hj]
    rw [if_pos (by simp [uses, huP])]
    simp only [argGrad, inherit1_not_terminal, Bool.false_eq_true, if_false, Outcome.ok_bind, ginit2]
    have e1 : mul (Qn.gP S o f gM) (.nelems (Qn.P S o f)) = .bin .mul (Qn.gP S o f gM) (.nelems (Qn.P S o f)) := by
      unfold mul; rw [if_neg (by simp [Qn.gP])]; rfl
    have e2 : mul (.const 0) (.sumAll (Qn.P S o f)) = .const 0 := by
      rw [mul_const_left 0 (by simp), if_pos rfl]
    have e3 : mul (.nelems (Qn.P S o f)) (.nelems (Qn.P S o f)) = .un (.pow 2) (.nelems (Qn.P S o f)) := by
      unfold mul pow; rw [if_pos rfl, if_neg (by norm_num), if_neg (by norm_num)]; rfl
    rw [e1, e2, e3]
    simp [sub, div, node2, grouping, R]
  constructor
  · rw [hE]
  · rw [info_list, hE]
    simp only [inherit1_idem]
    rw [hM.jac, ← info_list]

theorem Parts.R (h : Parts S shp o f) (hAB : S.acts ≠ S.B ∨ S.B = 1) {gM : Term} {gf : Nat → Nat → ℝ} (hn : ∀ c, gM ≠ .const c)
    (hI : Is shp val gM S.acts S.B gf) : Typed shp (Qn.R S o f gM) ∧
    Is shp val (Qn.R S o f gM) S.acts S.B (fun i j => 2 * gf i j * den shp val (Qn.td S o f) j 0 / S.B) := by
  obtain ⟨t1, t2, t3, _⟩ := h.td
  obtain ⟨n1, n2, n3⟩ := h.N
  rcases hI with ⟨c, hc, _⟩ | ⟨g1, g2, g3⟩
  · exact absurd hc (hn c)
  have gd : dims shp (.un (.mulL 2) (.grp 0 gM)) = (S.acts, S.B) := g2
  have hPt : Typed shp (gP S o f gM) := by
    refine ⟨⟨⟨g1, rfl⟩, by simp⟩, t1, rfl, rfl, ?_⟩
    rw [gd, t2]
    rcases hAB with hAB | hAB
    · exact .inr ⟨t3, rfl, hAB⟩
    · left; rw [hAB]
  have pd : dims shp (gP S o f gM) = (S.acts, S.B) := g2
  have md := dims_scalar (k := .mul) (a := gP S o f gM) n2
  have q2 : dims shp (.un (.pow 2) (.nelems (Qn.P S o f))) = (1, 1) := rfl
  have hT : Typed shp (Qn.R S o f gM) := ⟨⟨hPt, .inl n1, .inr (.inr (.inl rfl))⟩, .inl ⟨n1, by simp⟩, .inr (.inr (.inl rfl))⟩
  refine ⟨hT, .inr ⟨hT, ?_, fun i j hi hj => ?_⟩⟩
  · unfold Qn.R
    rw [dims_scalar q2, md, pd]
  · unfold Qn.R
    rw [den_scalar q2 i j (by rw [md, pd]; exact hi) (by rw [md, pd]; exact hj), den_scalar n2 i j (by rw [pd]; exact hi) (by rw [pd]; exact hj)]
    have e1 : den shp val (.un (.pow 2) (.nelems (Qn.P S o f))) 0 0 = (S.B : ℝ) ^ 2 := by
      rw [← n3 val 0 0]; exact Real.rpow_two _
    have e2 : den shp val (gP S o f gM) i j = 2 * gf i j * den shp val (Qn.td S o f) j 0 := by
      unfold gP
      simp only [den, Expr.K2.fn, Expr.K1.fn]
      rw [g3 i j hi hj]
      congr 1
      by_cases hB : dims shp (Qn.td S o f) = (1, 1)
      · rw [if_pos hB]
        rw [t2] at hB
        injection hB with hB _
        have : j = 0 := by omega
        rw [this]
      · rw [if_neg hB, if_pos trivial]
    rw [e1, e2, n3]
    simp only [Expr.K2.fn]
    have := h.pos
    have : (S.B : ℝ) ≠ 0 := by exact_mod_cast this.ne'
    field_simp

/-- The masked output as an element-wise function of the network's output, with a gradient that is no constant. -/
theorem mask_inv (h : Parts S shp o f) {k : Term} {c' : Four} {gf : Nat → Nat → ℝ} (hi : Inv shp val v k c' o gf) (h0 : ∀ i j, gf i j ≠ 0) :
    ∃ gf' gM, Inv shp val v k c' (Qn.M S o) gf' ∧ (info v (Qn.M S o)).grad = .ok gM ∧ ∀ c, gM ≠ .const c := by
  obtain ⟨m1, m2⟩ := h.mask_typed
  have i1 := inv_un hi .ident (by simp) (fun _ _ _ _ => trivial)
  have hd : dims shp (.un .ident o) = dims shp (.leaf ⟨false, S.net.omask⟩) := h.odims.trans m2.symm
  have i2 := inv_binL i1 m1 (free_ph _) hd .mul (fun _ _ _ _ => trivial)
  obtain ⟨g, g1, g2⟩ := i1.grad
  have g0 : g ≠ .const 0 := by
    have := grad_ne_zero i1 (fun i j => by simp only [Expr.d1, one_mul]; exact h0 i j)
    rw [g1] at this
    exact fun hh => this (by rw [hh])
  have hnc := mul_not_const (shp := shp) (e := .leaf ⟨false, S.net.omask⟩) g0 (g2.imp (fun ⟨c, h, _⟩ => ⟨c, h⟩) (fun h => h.1)) m1
  refine ⟨_, mul g (.leaf ⟨false, S.net.omask⟩), i2, ?_, hnc⟩
  have hj : inheritArgs (.un .ident o) (.leaf ⟨false, S.net.omask⟩) (info v (.un .ident o)).jac (info v (.leaf ⟨false, S.net.omask⟩)).jac =
      inherit1 (info v (.un .ident o)).jac := by
    unfold inheritArgs; rw [if_neg (by simp), (info_free (free_ph _)).2, inherit2_none_right]
  unfold Qn.M
  rw [info]
  simp only [hj, argGrad, inherit1_not_terminal, Bool.false_eq_true, if_false, g1, (info_free (free_ph _)).1]
  rw [if_pos (by simp [i1.used])]
  simp only [Outcome.ok_bind, ginit2]
  rw [mul_const_left 0 (by simp), if_pos rfl, add_zero_right hnc]

/-- What `derive` builds from the error, for a variable of the source network. -/
theorem derive_E (h : Parts S shp o f) (hAB : S.acts ≠ S.B ∨ S.B = 1) {k : Term} {c' : Four} {gf : Nat → Nat → ℝ} (hk : Core shp val v k c')
    (hi : Inv shp val v k c' o gf) (h0 : ∀ i j, gf i j ≠ 0) (hf : Free v f) :
    ∃ d G, derive v (Qn.E S o f) = .ok d ∧ (∀ c, d ≠ .const c) ∧ Is shp val d (leafSize (shp ⟨true, v⟩)).1 (leafSize (shp ⟨true, v⟩)).2 G ∧
      ∀ p q, p < (leafSize (shp ⟨true, v⟩)).1 → q < (leafSize (shp ⟨true, v⟩)).2 →
        HasDerivAt (fun s => den shp (setAt val v p q s) (Qn.E S o f) 0 0) (G p q) (val ⟨true, v⟩ p q) := by
  obtain ⟨gf', gM, i2, hg, hnc⟩ := mask_inv h hi h0
  obtain ⟨e1, e2⟩ := info_E h i2 hg hf
  obtain ⟨g', hg', hI⟩ := i2.grad
  rw [hg] at hg'; cases hg'
  obtain ⟨m1, m2, _⟩ := h.M
  rw [m2] at hI
  have hkd : dims shp k = (S.acts, S.B) := by rw [← i2.same, m2]
  obtain ⟨r1, r2⟩ := h.R hAB hnc hI
  have rn : ∀ c, R S o f gM ≠ .const c := by intro c; simp [R]
  obtain ⟨d, d1, d2, d3⟩ := hk.call (R S o f gM) _ (.inr rn) (by rw [hkd]; exact r2)
  refine ⟨d, _, ?_, d2 rn, d3, fun p q hp hq => ?_⟩
  · unfold derive Info.derive
    rw [e1, Outcome.ok_bind, e2, d1]
  · rw [hkd]
    have hfun : (fun s => den shp (setAt val v p q s) (Qn.E S o f) 0 0) = fun s =>
        (∑ j ∈ range S.B, ((∑ i ∈ range S.acts, den shp (setAt val v p q s) (Qn.M S o) i j) - den shp val f j 0) ^ 2) / S.B := by
      funext s
      rw [h.E.2.2]
      simp only [den_free hf]
    rw [hfun]
    have hM : ∀ j ∈ range S.B, HasDerivAt (fun s => ((∑ i ∈ range S.acts, den shp (setAt val v p q s) (Qn.M S o) i j) - den shp val f j 0) ^ 2)
        (2 * den shp val (Qn.td S o f) j 0 * ∑ i ∈ range S.acts, gf' i j * c' i j p q) (val ⟨true, v⟩ p q) := by
      intro j hj
      have a1 : HasDerivAt (fun s => (∑ i ∈ range S.acts, den shp (setAt val v p q s) (Qn.M S o) i j) - den shp val f j 0)
          (∑ i ∈ range S.acts, gf' i j * c' i j p q) (val ⟨true, v⟩ p q) := by
        refine HasDerivAt.sub_const _ (HasDerivAt.fun_sum (fun i hi => ?_))
        exact i2.deriv i j p q (by rw [m2]; exact mem_range.1 hi) (by rw [m2]; exact mem_range.1 hj) hp hq
      have a2 := a1.fun_pow 2
      refine a2.congr_deriv ?_
      rw [Backprop.setAt_self, h.td.2.2.2]
      simp
    refine ((HasDerivAt.fun_sum hM).div_const _).congr_deriv ?_
    rw [sum_comm, sum_div]
    refine sum_congr rfl (fun j _ => ?_)
    rw [mul_sum, sum_div]
    exact sum_congr rfl (fun i _ => by ring)

end Qn
end Verif.Props
