import Verif.Lemmas.ExprOps
import Mathlib.Analysis.SpecialFunctions.Trigonometric.ArctanDeriv
import Mathlib.Analysis.SpecialFunctions.Pow.Deriv
import Mathlib.Analysis.SpecialFunctions.Sqrt
/-!
# The gradient closures compute derivatives
-/
namespace Verif.Expr
open Spec
open scoped Classical

variable {C : Prop} {env : Env} {S : St}

/-- The derivative of a unary operation. -/
noncomputable def d1 : K1 → ℝ → ℝ
  | .ident, _ => 1
  | .neg, _ => -1
  | .sin, x => Real.cos x
  | .cos, x => -Real.sin x
  | .tan, x => 1 / (Real.cos x * Real.cos x)
  | .csc, x => -1 / (Real.sin x * Real.tan x)
  | .sec, x => Real.tan x / Real.cos x
  | .cot, x => -(1 / Real.sin x) * (1 / Real.sin x)
  | .exp, x => Real.exp x
  | .sqrt, x => 1 / (2 * Real.sqrt x)
  | .log, x => 1 / x
  | .pow s, x => s * x ^ (s - 1)
  | .addL _, _ => 1
  | .addR _, _ => 1
  | .subL _, _ => -1
  | .subR _, _ => 1
  | .mulL c, _ => c
  | .mulR c, _ => c
  | .divL c, x => -c / (x * x)
  | .divR c, _ => 1 / c
  | _, _ => 0

theorem hasDeriv1 (k : K1) (u : ℝ) (h : SmoothAt1 k u) : HasDerivAt k.fn (d1 k u) u := by
  cases k with
  | ident => exact hasDerivAt_id u
  | neg => exact (hasDerivAt_id u).neg
  | abs => cases h
  | sin => exact Real.hasDerivAt_sin u
  | cos => exact Real.hasDerivAt_cos u
  | tan =>
    have := Real.hasDerivAt_tan h
    rw [sq] at this; exact this
  | csc =>
    have h1 : Real.sin u ≠ 0 := h.1
    have h2 : Real.cos u ≠ 0 := h.2
    have := (hasDerivAt_const u (1 : ℝ)).div (Real.hasDerivAt_sin u) h.1
    refine this.congr_deriv ?_
    simp only [d1]
    rw [Real.tan_eq_sin_div_cos]
    field_simp
    ring
  | sec =>
    have h1 : Real.cos u ≠ 0 := h
    have := (hasDerivAt_const u (1 : ℝ)).div (Real.hasDerivAt_cos u) h1
    refine this.congr_deriv ?_
    simp only [d1]
    rw [Real.tan_eq_sin_div_cos]
    field_simp
    ring
  | cot =>
    have h1 : Real.sin u ≠ 0 := h
    have := (Real.hasDerivAt_cos u).div (Real.hasDerivAt_sin u) h1
    refine this.congr_deriv ?_
    simp only [d1]
    have h2 := Real.sin_sq_add_cos_sq u
    field_simp
    linarith
  | exp => exact Real.hasDerivAt_exp u
  | sqrt =>
    have h1 : (0 : ℝ) < u := h
    exact Real.hasDerivAt_sqrt h1.ne'
  | round => cases h
  | log =>
    have h1 : (0 : ℝ) < u := h
    refine (Real.hasDerivAt_log h1.ne').congr_deriv ?_
    simp [d1]
  | pow s =>
    have key : (u ≠ 0 ∨ 1 ≤ s) ∨ s = 0 := by
      rcases h with h | ⟨h, _⟩ | ⟨n, h⟩
      · exact Or.inl (Or.inl h.ne')
      · exact Or.inl (Or.inl h)
      · rcases Nat.eq_zero_or_pos n with rfl | hn
        · right; simpa using h
        · left; right; rw [h]; exact_mod_cast hn
    rcases key with key | rfl
    · exact Real.hasDerivAt_rpow_const key
    · simp only [d1, zero_mul]
      have : K1.fn (.pow 0) = fun _ => 1 := by funext x; simp [K1.fn]
      rw [this]; exact hasDerivAt_const u 1
  | clip => cases h
  | addL c => exact (hasDerivAt_id u).const_add c
  | addR c => exact (hasDerivAt_id u).add_const c
  | subL c => exact (hasDerivAt_id u).const_sub c
  | subR c => exact (hasDerivAt_id u).sub_const c
  | mulL c => exact ((hasDerivAt_id u).const_mul c).congr_deriv (by simp [d1])
  | mulR c => exact ((hasDerivAt_id u).mul_const c).congr_deriv (by simp [d1])
  | divL c =>
    have h1 : u ≠ 0 := h
    have := (hasDerivAt_const u c).div (hasDerivAt_id u) h1
    refine this.congr_deriv ?_
    simp only [d1, id]
    ring
  | divR c => exact (hasDerivAt_id u).div_const c
  | condL => cases h
  | condR => cases h

/-- The derivative of a binary operation along derivatives of its arguments. -/
noncomputable def d2 : K2 → ℝ → ℝ → ℝ → ℝ → ℝ
  | .add, _, _, p, q => p + q
  | .sub, _, _, p, q => p - q
  | .mul, x, y, p, q => p * y + q * x
  | .div, x, y, p, q => (p * y - q * x) / (y * y)
  | .cond _ _, _, _, _, _ => 0

theorem hasDeriv2 (k : K2) (F G : ℝ → ℝ) (p q t : ℝ) (hF : HasDerivAt F p t) (hG : HasDerivAt G q t)
    (h : SmoothAt2 k (F t) (G t)) : HasDerivAt (fun s => k.fn (F s) (G s)) (d2 k (F t) (G t) p q) t := by
  cases k with
  | add => exact hF.add hG
  | sub => exact hF.sub hG
  | mul => exact (hF.mul hG).congr_deriv (by simp [d2]; ring)
  | div =>
    have h : G t ≠ 0 := h
    exact (hF.div hG h).congr_deriv (by simp [d2]; ring)
  | cond => cases h

theorem change_self (ρ : Nat → ℝ) (x : Nat) : change ρ x (ρ x) = ρ := by
  funext y; unfold change; split
  · rename_i h; rw [h]
  · rfl

/-- Derivatives exist. -/
theorem smooth_deriv {ρ : Nat → ℝ} {i n : Nat} (x : Nat) (h : Smooth S ρ i n) :
    ∃ F : ℝ → ℝ, ∃ w, (∀ t, Val S (change ρ x t) i n (F t)) ∧ HasDerivAt F w (ρ x) := by
  induction h with
  | @leaf n tr h =>
    by_cases hx : n = x
    · refine ⟨id, 1, fun t => ?_, hasDerivAt_id _⟩
      have := Val.leaf (S := S) (ρ := change ρ x t) (i := i) h
      simpa [change, hx] using this
    · refine ⟨fun _ => ρ n, 0, fun t => ?_, hasDerivAt_const _ _⟩
      have := Val.leaf (S := S) (ρ := change ρ x t) (i := i) h
      simpa [change, hx] using this
  | const h hv =>
    obtain ⟨v, hv⟩ := hv
    exact ⟨fun _ => v, 0, fun t => .const h hv, hasDerivAt_const _ _⟩
  | @un n k a u h _ hu hs ih =>
    obtain ⟨F, w, h1, h2⟩ := ih
    have e : F (ρ x) = u := by
      have := h1 (ρ x); rw [change_self] at this; exact this.unique hu
    refine ⟨fun t => k.fn (F t), d1 k u * w, fun t => .un h (h1 t), ?_⟩
    have := hasDeriv1 k u hs
    rw [← e] at this
    have := HasDerivAt.comp (ρ x) this h2
    rw [e] at this; exact this
  | @bin n k a b u w h _ _ hu hw hs ih1 ih2 =>
    obtain ⟨F, p, h1, h2⟩ := ih1
    obtain ⟨G, q, g1, g2⟩ := ih2
    have e : F (ρ x) = u := by
      have := h1 (ρ x); rw [change_self] at this; exact this.unique hu
    have e' : G (ρ x) = w := by
      have := g1 (ρ x); rw [change_self] at this; exact this.unique hw
    refine ⟨fun t => k.fn (F t) (G t), _, fun t => .bin h (h1 t) (g1 t), hasDeriv2 k F G p q (ρ x) h2 g2 (by rw [e, e']; exact hs)⟩

theorem isDeriv_un {n x a : Nat} {k : K1} {ρ : Nat → ℝ} {i : Nat} {v : ℝ} (h : S.nodes[n]? = some (.un k a))
    (hd : IsDeriv S x n ρ i v) : ∃ u w, Val S ρ i a u ∧ IsDeriv S x a ρ i w ∧ SmoothAt1 k u ∧ v = d1 k u * w := by
  obtain ⟨h1, F, h2, h3⟩ := hd
  cases h1 with
  | leaf g => rw [h] at g; cases g
  | const g _ => rw [h] at g; cases g
  | bin g _ _ _ _ _ => rw [h] at g; cases g
  | @un _ k' a' u g hs hu hk =>
    rw [h] at g; cases g
    obtain ⟨G, w, g1, g2⟩ := smooth_deriv x hs
    refine ⟨u, w, hu, ⟨hs, G, g1, g2⟩, hk, ?_⟩
    have e : G (ρ x) = u := by
      have := g1 (ρ x); rw [change_self] at this; exact this.unique hu
    have e2 : F = fun t => k.fn (G t) := funext fun t => (h2 t).unique (.un h (g1 t))
    have := hasDeriv1 k u hk
    rw [← e] at this
    have := HasDerivAt.comp (ρ x) this g2
    rw [e2] at h3
    rw [e] at this
    exact h3.unique this

theorem isDeriv_bin {n x a b : Nat} {k : K2} {ρ : Nat → ℝ} {i : Nat} {v : ℝ} (h : S.nodes[n]? = some (.bin k a b))
    (hd : IsDeriv S x n ρ i v) : ∃ u w p q, Val S ρ i a u ∧ Val S ρ i b w ∧ IsDeriv S x a ρ i p ∧ IsDeriv S x b ρ i q ∧
      SmoothAt2 k u w ∧ v = d2 k u w p q := by
  obtain ⟨h1, F, h2, h3⟩ := hd
  cases h1 with
  | leaf g => rw [h] at g; cases g
  | const g _ => rw [h] at g; cases g
  | un g _ _ _ => rw [h] at g; cases g
  | @bin _ k' a' b' u w g hs hs' hu hw hk =>
    rw [h] at g; cases g
    obtain ⟨G, p, g1, g2⟩ := smooth_deriv x hs
    obtain ⟨H, q, k1, k2⟩ := smooth_deriv x hs'
    refine ⟨u, w, p, q, hu, hw, ⟨hs, G, g1, g2⟩, ⟨hs', H, k1, k2⟩, hk, ?_⟩
    have e : G (ρ x) = u := by
      have := g1 (ρ x); rw [change_self] at this; exact this.unique hu
    have e' : H (ρ x) = w := by
      have := k1 (ρ x); rw [change_self] at this; exact this.unique hw
    have e2 : F = fun t => k.fn (G t) (H t) := funext fun t => (h2 t).unique (.bin h (g1 t) (k1 t))
    have := hasDeriv2 k G H p q (ρ x) g2 k2 (by rw [e, e']; exact hk)
    rw [e2] at h3
    rw [e, e'] at this
    exact h3.unique this

theorem NS.ne_zero {n : Nat} (h : NS S n) : constData S n ≠ some [0] := h 0

theorem Builds.noq {fmt : ℝ → List Char} {m : Outcome (Nat × St)} {V : (Nat → ℝ) → Nat → ℝ → Prop} {q : Prop}
    (h : Builds C fmt S m V q) : Builds C fmt S m V False := h.weaken (fun _ _ _ h => h) False.elim

theorem Builds.forget {fmt : ℝ → List Char} {m : Outcome (Nat × St)} {V V' : (Nat → ℝ) → Nat → ℝ → Prop} {q : Prop}
    (h : Builds C fmt S m V q) (hv : ∀ ρ i v, ¬ V' ρ i v) : Builds C fmt S m V' False :=
  h.weaken (fun ρ i v h => absurd h (hv ρ i v)) False.elim

/-- The gradient closure of a unary operation computes derivative times gradient. -/
theorem ginit1_builds (I : Inv C env.fmt S) (k : K1) (a g : Nat) (ha : a < S.nodes.length) (hg : g < S.nodes.length)
    (hn : k = .ident ∨ NS S a) (hd : ∀ c, k = .divR c → c ≠ 0) (hC : C ∨ NotCond1 k) :
    Builds C env.fmt S (ginit1 env k a g S)
      (fun ρ i v => ∃ u w, Val S ρ i a u ∧ Val S ρ i g w ∧ SmoothAt1 k u ∧ v = d1 k u * w) False := by
  have up : ∀ {S1 : St} {m : Nat}, Ext S S1 → m < S.nodes.length → m < S1.nodes.length :=
    fun e h => Nat.lt_of_lt_of_le h e.length
  cases k with
  | ident =>
    refine (ret_builds I g hg).weaken ?_ False.elim
    rintro ρ i v ⟨u, w, hu, hw, hs, rfl⟩; simpa [d1] using hw
  | neg =>
    refine (neg_builds I g hg).weaken ?_ False.elim
    rintro ρ i v ⟨u, w, hu, hw, hs, rfl⟩; exact ⟨w, hw, by simp [d1]⟩
  | abs => exact (abs_builds I g hg).forget (by rintro ρ i v ⟨_, _, _, _, h, _⟩; cases h)
  | sin =>
    refine ((unop_builds I .cos a ha (by simp) (by simp) (Or.inr (by simp [NotCond1]))).bind (p := False) (fun m S1 i1 e1 l1 _ =>
      (mul_builds i1 g m (up e1 hg) l1).noq)).weaken ?_ id
    rintro ρ i v ⟨u, w, hu, hw, hs, rfl⟩ m S1 e1 hm
    exact ⟨w, Real.cos u, hw.mono e1, hm _ ⟨u, hu, rfl⟩, by simp [d1]; ring⟩
  | cos =>
    refine ((neg_builds I g hg).bind (p := False) (fun m S1 i1 e1 l1 _ =>
      (unop_builds i1 .sin a (up e1 ha) (by simp) (by simp) (Or.inr (by simp [NotCond1]))).bind (p := False) (fun m' S2 i2 e2 l2 _ =>
      (mul_builds i2 m m' (Nat.lt_of_lt_of_le l1 e2.length) l2).noq))).weaken ?_ id
    rintro ρ i v ⟨u, w, hu, hw, hs, rfl⟩ m S1 e1 hm m' S2 e2 hm'
    exact ⟨-w, Real.sin u, (hm _ ⟨w, hw, rfl⟩).mono e2, hm' _ ⟨u, hu.mono e1, rfl⟩, by simp [d1]; ring⟩
  | tan =>
    have hn : NS S a := by rcases hn with h | h; cases h; exact h
    refine ((unop_builds I .cos a ha (by simp) (by simp) (Or.inr (by simp [NotCond1]))).bind (p := False) (fun m S1 i1 e1 l1 n1 =>
      (mul_builds i1 m m l1 l1).bind (p := False) (fun m' S2 i2 e2 l2 n2 =>
      (div_builds i2 g m' (up (e1.trans e2) hg) l2 (n2 ⟨n1 hn, n1 hn⟩).ne_zero).noq))).weaken ?_ id
    rintro ρ i v ⟨u, w, hu, hw, hs, rfl⟩ m S1 e1 hm m' S2 e2 hm'
    have hc : Real.cos u ≠ 0 := hs
    have h1 := hm _ ⟨u, hu, rfl⟩
    exact ⟨w, _, hw.mono (e1.trans e2), hm' _ ⟨_, _, h1, h1, rfl⟩, mul_ne_zero hc hc, by simp [d1, K1.fn]; ring⟩
  | csc =>
    have hn : NS S a := by rcases hn with h | h; cases h; exact h
    refine ((neg_builds I g hg).bind (p := False) (fun m S1 i1 e1 l1 _ =>
      (unop_builds i1 .sin a (up e1 ha) (by simp) (by simp) (Or.inr (by simp [NotCond1]))).bind (p := False) (fun m2 S2 i2 e2 l2 n2 =>
      (unop_builds i2 .tan a (up (e1.trans e2) ha) (by simp) (by simp) (Or.inr (by simp [NotCond1]))).bind (p := False) (fun m3 S3 i3 e3 l3 n3 =>
      (mul_builds i3 m2 m3 (Nat.lt_of_lt_of_le l2 e3.length) l3).bind (p := False) (fun m4 S4 i4 e4 l4 n4 =>
      (div_builds i4 m m4 (Nat.lt_of_lt_of_le l1 (e2.trans (e3.trans e4)).length) l4
        (n4 ⟨(n2 (hn.mono e1 ha)).mono e3 l2, n3 (hn.mono (e1.trans e2) ha)⟩).ne_zero).noq))))).weaken ?_ id
    rintro ρ i v ⟨u, w, hu, hw, hs, rfl⟩ m S1 e1 hm m2 S2 e2 hm2 m3 S3 e3 hm3 m4 S4 e4 hm4
    have h1 : Real.sin u ≠ 0 := hs.1
    have h2 : Real.cos u ≠ 0 := hs.2
    have h3 : Real.tan u ≠ 0 := by rw [Real.tan_eq_sin_div_cos]; exact div_ne_zero h1 h2
    have k1 := hm _ ⟨w, hw, rfl⟩
    have k2 := hm2 _ ⟨u, hu.mono e1, rfl⟩
    have k3 := hm3 _ ⟨u, hu.mono (e1.trans e2), rfl⟩
    have k4 := hm4 _ ⟨_, _, k2.mono e3, k3, rfl⟩
    exact ⟨_, _, k1.mono (e2.trans (e3.trans e4)), k4, mul_ne_zero h1 h3, by simp only [d1, K1.fn]; ring⟩
  | sec =>
    have hn : NS S a := by rcases hn with h | h; cases h; exact h
    refine ((unop_builds I .tan a ha (by simp) (by simp) (Or.inr (by simp [NotCond1]))).bind (p := False) (fun m S1 i1 e1 l1 n1 =>
      (mul_builds i1 g m (up e1 hg) l1).bind (p := False) (fun m2 S2 i2 e2 l2 n2 =>
      (unop_builds i2 .cos a (up (e1.trans e2) ha) (by simp) (by simp) (Or.inr (by simp [NotCond1]))).bind (p := False) (fun m3 S3 i3 e3 l3 n3 =>
      (div_builds i3 m2 m3 (Nat.lt_of_lt_of_le l2 e3.length) l3 (n3 (hn.mono (e1.trans e2) ha)).ne_zero).noq)))).weaken ?_ id
    rintro ρ i v ⟨u, w, hu, hw, hs, rfl⟩ m S1 e1 hm m2 S2 e2 hm2 m3 S3 e3 hm3
    have h2 : Real.cos u ≠ 0 := hs
    have k1 := hm _ ⟨u, hu, rfl⟩
    have k2 := hm2 _ ⟨_, _, hw.mono e1, k1, rfl⟩
    have k3 := hm3 _ ⟨u, hu.mono (e1.trans e2), rfl⟩
    exact ⟨_, _, k2.mono e3, k3, h2, by simp only [d1, K1.fn]; ring⟩
  | cot =>
    refine ((unop_builds I .csc a ha (by simp) (by simp) (Or.inr (by simp [NotCond1]))).bind (p := False) (fun m S1 i1 e1 l1 n1 =>
      (neg_builds i1 g (up e1 hg)).bind (p := False) (fun m2 S2 i2 e2 l2 n2 =>
      (mul_builds i2 m2 m l2 (Nat.lt_of_lt_of_le l1 e2.length)).bind (p := False) (fun m3 S3 i3 e3 l3 n3 =>
      (mul_builds i3 m3 m l3 (Nat.lt_of_lt_of_le l1 (e2.trans e3).length)).noq)))).weaken ?_ id
    rintro ρ i v ⟨u, w, hu, hw, hs, rfl⟩ m S1 e1 hm m2 S2 e2 hm2 m3 S3 e3 hm3
    have k1 := hm _ ⟨u, hu, rfl⟩
    have k2 := hm2 _ ⟨_, hw.mono e1, rfl⟩
    have k3 := hm3 _ ⟨_, _, k2, k1.mono e2, rfl⟩
    exact ⟨_, _, k3, k1.mono (e2.trans e3), by simp only [d1, K1.fn]; ring⟩
  | exp =>
    refine ((unop_builds I .exp a ha (by simp) (by simp) (Or.inr (by simp [NotCond1]))).bind (p := False) (fun m S1 i1 e1 l1 _ =>
      (mul_builds i1 g m (up e1 hg) l1).noq)).weaken ?_ id
    rintro ρ i v ⟨u, w, hu, hw, hs, rfl⟩ m S1 e1 hm
    exact ⟨w, Real.exp u, hw.mono e1, hm _ ⟨u, hu, rfl⟩, by simp [d1]; ring⟩
  | sqrt =>
    have hn : NS S a := by rcases hn with h | h; cases h; exact h
    refine ((unop_builds I .sqrt a ha (by simp) (by simp) (Or.inr (by simp [NotCond1]))).bind (p := False) (fun m S1 i1 e1 l1 n1 =>
      (mulL_builds i1 2 m l1).bind (p := False) (fun m' S2 i2 e2 l2 n2 =>
      (div_builds i2 g m' (up (e1.trans e2) hg) l2 (n2 ⟨n1 hn, by norm_num⟩).ne_zero).noq))).weaken ?_ id
    rintro ρ i v ⟨u, w, hu, hw, hs, rfl⟩ m S1 e1 hm m' S2 e2 hm'
    have hc : (0 : ℝ) < u := hs
    have h1 := hm _ ⟨u, hu, rfl⟩
    have h2 := hm' _ ⟨_, h1, rfl⟩
    have h3 : Real.sqrt u ≠ 0 := (Real.sqrt_pos.mpr hc).ne'
    exact ⟨w, _, hw.mono (e1.trans e2), h2, mul_ne_zero (by norm_num) h3, by simp only [d1, K1.fn]; ring⟩
  | round => exact (unop_builds I .round g hg (by simp) (by simp) (Or.inr (by simp [NotCond1]))).forget (by rintro ρ i v ⟨_, _, _, _, h, _⟩; cases h)
  | log =>
    have hn : NS S a := by rcases hn with h | h; cases h; exact h
    refine (div_builds I g a hg ha hn.ne_zero).weaken ?_ False.elim
    rintro ρ i v ⟨u, w, hu, hw, hs, rfl⟩
    have hc : (0 : ℝ) < u := hs
    exact ⟨w, u, hw, hu, hc.ne', by simp only [d1]; ring⟩
  | pow s =>
    refine ((mulL_builds I s g hg).bind (p := False) (fun m S1 i1 e1 l1 n1 =>
      (pow_builds i1 a (s - 1) (up e1 ha)).bind (p := False) (fun m2 S2 i2 e2 l2 n2 =>
      (mul_builds i2 m m2 (Nat.lt_of_lt_of_le l1 e2.length) l2).noq))).weaken ?_ id
    rintro ρ i v ⟨u, w, hu, hw, hs, rfl⟩ m S1 e1 hm m2 S2 e2 hm2
    have k1 := hm _ ⟨_, hw, rfl⟩
    have k2 := hm2 _ ⟨_, hu.mono e1, rfl⟩
    exact ⟨_, _, k1.mono e2, k2, by simp only [d1]; ring⟩
  | clip lo hi =>
    exact ((clip_builds I a lo hi ha).bind (p := False) (fun m S1 i1 e1 l1 _ =>
      (mul_builds i1 g m (up e1 hg) l1).noq)).forget (by rintro ρ i v ⟨_, _, _, _, h, _⟩; cases h)
  | addL c =>
    refine (ret_builds I g hg).weaken ?_ False.elim
    rintro ρ i v ⟨u, w, hu, hw, hs, rfl⟩; simpa [d1] using hw
  | addR c =>
    refine (ret_builds I g hg).weaken ?_ False.elim
    rintro ρ i v ⟨u, w, hu, hw, hs, rfl⟩; simpa [d1] using hw
  | subL c =>
    refine (neg_builds I g hg).weaken ?_ False.elim
    rintro ρ i v ⟨u, w, hu, hw, hs, rfl⟩; exact ⟨w, hw, by simp [d1]⟩
  | subR c =>
    refine (ret_builds I g hg).weaken ?_ False.elim
    rintro ρ i v ⟨u, w, hu, hw, hs, rfl⟩; simpa [d1] using hw
  | mulL c =>
    refine (mulL_builds I c g hg).weaken ?_ False.elim
    rintro ρ i v ⟨u, w, hu, hw, hs, rfl⟩; exact ⟨w, hw, by simp [d1]⟩
  | mulR c =>
    refine (mulL_builds I c g hg).weaken ?_ False.elim
    rintro ρ i v ⟨u, w, hu, hw, hs, rfl⟩; exact ⟨w, hw, by simp [d1]⟩
  | divL c =>
    have hn : NS S a := by rcases hn with h | h; cases h; exact h
    refine ((mulL_builds I (-c) g hg).bind (p := False) (fun m S1 i1 e1 l1 n1 =>
      (mul_builds i1 a a (up e1 ha) (up e1 ha)).bind (p := False) (fun m2 S2 i2 e2 l2 n2 =>
      (div_builds i2 m m2 (Nat.lt_of_lt_of_le l1 e2.length) l2 (n2 ⟨hn.mono e1 ha, hn.mono e1 ha⟩).ne_zero).noq))).weaken ?_ id
    rintro ρ i v ⟨u, w, hu, hw, hs, rfl⟩ m S1 e1 hm m2 S2 e2 hm2
    have hc : u ≠ 0 := hs
    have k1 := hm _ ⟨_, hw, rfl⟩
    have k2 := hm2 _ ⟨_, _, hu.mono e1, hu.mono e1, rfl⟩
    exact ⟨_, _, k1.mono e2, k2, mul_ne_zero hc hc, by simp only [d1]; ring⟩
  | divR c =>
    refine (divR_builds I g c hg (hd c rfl)).weaken ?_ False.elim
    rintro ρ i v ⟨u, w, hu, hw, hs, rfl⟩; exact ⟨w, hw, by simp only [d1]; ring⟩
  | condL name cmp c => exact (unop_builds I _ g hg (by simp) (by simp) (Or.inl (hC.resolve_right id))).forget (by rintro ρ i v ⟨_, _, _, _, h, _⟩; cases h)
  | condR name cmp c => exact (unop_builds I _ g hg (by simp) (by simp) (Or.inl (hC.resolve_right id))).forget (by rintro ρ i v ⟨_, _, _, _, h, _⟩; cases h)

theorem ginit2_builds (I : Inv C env.fmt S) (k : K2) (a b ga gb : Nat) (ha : a < S.nodes.length) (hb : b < S.nodes.length)
    (hga : ga < S.nodes.length) (hgb : gb < S.nodes.length) (nb : NS S b) (hC : C ∨ NotCond2 k) :
    Builds C env.fmt S (ginit2 env k a b ga gb S)
      (fun ρ i v => ∃ u w p q, Val S ρ i a u ∧ Val S ρ i b w ∧ Val S ρ i ga p ∧ Val S ρ i gb q ∧ SmoothAt2 k u w ∧ v = d2 k u w p q) False := by
  have up : ∀ {S1 : St} {m : Nat}, Ext S S1 → m < S.nodes.length → m < S1.nodes.length :=
    fun e h => Nat.lt_of_lt_of_le h e.length
  cases k with
  | add =>
    refine (add_builds I ga gb hga hgb).weaken ?_ False.elim
    rintro ρ i v ⟨u, w, p, q, hu, hw, hp, hq, hs, rfl⟩; exact ⟨p, q, hp, hq, rfl⟩
  | sub =>
    refine (sub_builds I ga gb hga hgb).weaken ?_ False.elim
    rintro ρ i v ⟨u, w, p, q, hu, hw, hp, hq, hs, rfl⟩; exact ⟨p, q, hp, hq, rfl⟩
  | mul =>
    refine ((mul_builds I ga b hga hb).bind (p := False) (fun m S1 i1 e1 l1 n1 =>
      (mul_builds i1 gb a (up e1 hgb) (up e1 ha)).bind (p := False) (fun m2 S2 i2 e2 l2 n2 =>
      (add_builds i2 m m2 (Nat.lt_of_lt_of_le l1 e2.length) l2).noq))).weaken ?_ id
    rintro ρ i v ⟨u, w, p, q, hu, hw, hp, hq, hs, rfl⟩ m S1 e1 hm m2 S2 e2 hm2
    exact ⟨_, _, (hm _ ⟨_, _, hp, hw, rfl⟩).mono e2, hm2 _ ⟨_, _, hq.mono e1, hu.mono e1, rfl⟩, rfl⟩
  | div =>
    refine ((mul_builds I ga b hga hb).bind (p := False) (fun m S1 i1 e1 l1 n1 =>
      (mul_builds i1 gb a (up e1 hgb) (up e1 ha)).bind (p := False) (fun m2 S2 i2 e2 l2 n2 =>
      (sub_builds i2 m m2 (Nat.lt_of_lt_of_le l1 e2.length) l2).bind (p := False) (fun m3 S3 i3 e3 l3 n3 =>
      (mul_builds i3 b b (up (e1.trans (e2.trans e3)) hb) (up (e1.trans (e2.trans e3)) hb)).bind (p := False) (fun m4 S4 i4 e4 l4 n4 =>
      (div_builds i4 m3 m4 (Nat.lt_of_lt_of_le l3 e4.length) l4
        (n4 ⟨nb.mono (e1.trans (e2.trans e3)) hb, nb.mono (e1.trans (e2.trans e3)) hb⟩).ne_zero).noq))))).weaken ?_ id
    rintro ρ i v ⟨u, w, p, q, hu, hw, hp, hq, hs, rfl⟩ m S1 e1 hm m2 S2 e2 hm2 m3 S3 e3 hm3 m4 S4 e4 hm4
    have hc : w ≠ 0 := hs
    have k1 := hm _ ⟨_, _, hp, hw, rfl⟩
    have k2 := hm2 _ ⟨_, _, hq.mono e1, hu.mono e1, rfl⟩
    have k3 := hm3 _ ⟨_, _, k1.mono e2, k2, rfl⟩
    have k4 := hm4 _ ⟨_, _, hw.mono (e1.trans (e2.trans e3)), hw.mono (e1.trans (e2.trans e3)), rfl⟩
    exact ⟨_, _, k3.mono e4, k4, mul_ne_zero hc hc, rfl⟩
  | cond name cmp =>
    exact (cond_builds I name cmp ga gb hga hgb (hC.resolve_right id)).forget (by rintro ρ i v ⟨_, _, _, _, _, _, _, _, h, _⟩; cases h)

/-! ## Leaves that are not below a node -/

theorem reaches_false {x : Nat} (fuel n : Nat) {ρ : Nat → ℝ} {i : Nat} {v : ℝ} (t : ℝ) (w : WF S) (hf : n < fuel)
    (hr : reaches S x fuel n = false) (h : Val S ρ i n v) : Val S (change ρ x t) i n v := by
  induction fuel generalizing n v with
  | zero => omega
  | succ fuel ih =>
    cases h with
    | leaf h =>
      simp only [reaches, h, decide_eq_false_iff_not] at hr
      have := Val.leaf (S := S) (ρ := change ρ x t) (i := i) h
      simpa [change, hr] using this
    | const h h' => exact .const h h'
    | un h h' =>
      simp only [reaches, h] at hr
      exact .un h (ih _ (by have := w _ _ h _ (List.mem_cons_self); omega) hr h')
    | bin h h1 h2 =>
      simp only [reaches, h, Bool.or_eq_false_iff] at hr
      exact .bin h (ih _ (by have := w _ _ h _ (List.mem_cons_self); omega) hr.1 h1)
        (ih _ (by have := w _ _ h _ (List.mem_cons_of_mem _ List.mem_cons_self); omega) hr.2 h2)

theorem isDeriv_zero {x n : Nat} {ρ : Nat → ℝ} {i : Nat} {v : ℝ} (w : WF S) (hr : reaches S x (n + 1) n = false)
    (h : IsDeriv S x n ρ i v) : v = 0 := by
  obtain ⟨_, F, h1, h2⟩ := h
  have e : F = fun _ => F (ρ x) := by
    funext t
    have := h1 (ρ x)
    rw [change_self] at this
    exact (h1 t).unique (reaches_false (n + 1) n t w (by omega) hr this)
  rw [e] at h2
  exact h2.unique (hasDerivAt_const _ _)

theorem val_zero (I : Inv C env.fmt S) (ρ : Nat → ℝ) (i : Nat) : Val S ρ i 0 0 := .const I.zero (constAt_single 0 i)
theorem val_one (I : Inv C env.fmt S) (ρ : Nat → ℝ) (i : Nat) : Val S ρ i 1 1 := .const I.one (constAt_single 1 i)

theorem zero_lt (I : Inv C env.fmt S) : 0 < S.nodes.length := (List.getElem?_eq_some_iff.mp I.zero).1
theorem one_lt (I : Inv C env.fmt S) : 1 < S.nodes.length := (List.getElem?_eq_some_iff.mp I.one).1

theorem ret_zero (I : Inv C env.fmt S) {V : (Nat → ℝ) → Nat → ℝ → Prop} (hV : ∀ ρ i v, V ρ i v → v = 0) :
    Builds C env.fmt S (ret 0 S) V False :=
  (ret_builds I 0 (zero_lt I)).weaken (fun ρ i v h => by rw [hV ρ i v h]; exact val_zero I ρ i) False.elim

/-- Storing a gradient. -/
theorem setCache_builds {m : Outcome (Nat × St)} {n x : Nat} (hn : n < S.nodes.length) (wf : WF S)
    (h : Builds C env.fmt S m (IsDeriv S x n) False) :
    Builds C env.fmt S (m >>= fun r => .ok (r.1, setCache n x r.1 r.2)) (IsDeriv S x n) False := by
  obtain ⟨d, S', rfl, I, e, hd, hv, _⟩ := h
  refine ⟨d, setCache n x d S', rfl, ?_, ⟨e.nodes, e.asked1, e.asked2⟩, hd, ?_, False.elim⟩
  · refine ⟨I.wf, I.cne, I.ask1, I.ask2, I.nsu, I.nsb, I.divR, I.pow, I.zero, I.one, I.nocond, ?_⟩
    intro m y d' h
    have ec : Ext S' (setCache n x d S') := ⟨⟨[], by simp [setCache]⟩, fun _ h => h, fun _ h => h⟩
    have key : ∀ (ρ : Nat → ℝ) (i p : Nat) (v : ℝ), Val S' ρ i p v → Val (setCache n x d S') ρ i p v :=
      fun ρ i p v h => h.mono ec
    simp only [setCache] at h
    split at h
    · rename_i hh
      obtain ⟨rfl, rfl⟩ := hh
      cases h
      refine ⟨Nat.lt_of_lt_of_le hn e.length, hd, fun c ρ i w hw => ?_⟩
      exact key _ _ _ _ (hv (c.of_ext ec) ρ i w ((hw.restrict I.wf ec (Nat.lt_of_lt_of_le hn e.length)).restrict wf e hn))
    · obtain ⟨c1, c2, c3⟩ := I.cache m y d' h
      exact ⟨c1, c2, fun c ρ i w hw => key _ _ _ _ (c3 (c.of_ext ec) ρ i w (hw.restrict I.wf ec c1))⟩
  · intro c ρ i v h
    have ec : Ext S' (setCache n x d S') := ⟨⟨[], by simp [setCache]⟩, fun _ h => h, fun _ h => h⟩
    exact (hv (c.of_ext ec) ρ i v h).mono ec

/-- `get_gradient` builds the derivative. -/
theorem gradient_builds (x : Nat) (fuel n : Nat) (S : St) (I : Inv C env.fmt S) (hf : n < fuel) (hn : n < S.nodes.length)
    (hx : S.nodes[x]? = some (.leaf true)) :
    Builds C env.fmt S (gradient env x fuel n S) (IsDeriv S x n) False := by
  induction fuel generalizing n S with
  | zero => omega
  | succ fuel ih =>
    have hnode : ∃ nd, S.nodes[n]? = some nd := ⟨_, List.getElem?_eq_getElem hn⟩
    obtain ⟨nd, hnode⟩ := hnode
    rw [gradient]
    cases nd with
    | leaf tr =>
      simp only [hnode]
      by_cases hh : tr = true ∧ n = x
      · rw [if_pos hh]
        refine (ret_builds I 1 (one_lt I)).weaken ?_ False.elim
        rintro ρ i v ⟨_, F, h1, h2⟩
        have : F = id := by
          funext t
          refine (h1 t).unique ?_
          have := Val.leaf (S := S) (ρ := change ρ x t) (i := i) hnode
          simpa [change, hh.2] using this
        rw [this] at h2
        rw [h2.unique (hasDerivAt_id _)]
        exact val_one I ρ i
      · rw [if_neg hh]
        refine ret_zero I ?_
        rintro ρ i v hd
        refine isDeriv_zero I.wf ?_ hd
        simp only [reaches, hnode, decide_eq_false_iff_not]
        rintro rfl
        rw [hnode] at hx; cases hx
        exact hh ⟨rfl, rfl⟩
    | const d =>
      simp only [hnode]
      refine ret_zero I ?_
      rintro ρ i v hd
      refine isDeriv_zero I.wf ?_ hd
      simp only [reaches, hnode, decide_eq_false_iff_not]
      rintro rfl
      rw [hnode] at hx; cases hx
    | un k a =>
      simp only [hnode]
      have han : a < n := I.wf _ _ hnode a (by simp [Node.args])
      cases hr : reaches S x (n + 1) n with
      | false =>
        rw [if_neg (by simp)]
        exact ret_zero I (fun ρ i v hd => isDeriv_zero I.wf hr hd)
      | true =>
        rw [if_pos rfl]
        cases hc : S.cache n x with
        | some d =>
          obtain ⟨c1, c2, c3⟩ := I.cache n x d hc
          exact ⟨d, S, rfl, I, Ext.refl S, c2, fun c ρ i v h => c3 c ρ i v h, False.elim⟩
        | none =>
          obtain ⟨g, S1, h1, h2, h3, h4, h5, _⟩ := ih a S I (by omega) (by omega) hx
          simp only [h1, Outcome.ok_bind]
          have hn' := Nat.lt_of_lt_of_le hn h3.length
          obtain ⟨d, S2, g1, g2, g3, g4, g5, _⟩ := ginit1_builds (env := env) h2 k a g (by omega) h4
            ((I.nsu n k a hnode).imp id (fun h => h.mono h3 (by omega))) (by rintro c rfl; exact I.divR n c a hnode)
            (I.nocond.imp id (fun h => h.1 k (I.ask1 n k a hnode)))
          have key : Builds C env.fmt S (ginit1 env k a g S1) (IsDeriv S x n) False := by
            refine ⟨d, S2, g1, g2, h3.trans g3, g4, fun c ρ i v hv => ?_, False.elim⟩
            obtain ⟨u, w, hu, hw, hs, rfl⟩ := isDeriv_un hnode hv
            exact g5 c ρ i _ ⟨u, w, hu.mono h3, h5 (c.of_ext g3) ρ i w hw, hs, rfl⟩
          exact setCache_builds hn I.wf key
    | bin k a b =>
      simp only [hnode]
      have han : a < n := I.wf _ _ hnode a (by simp [Node.args])
      have hbn : b < n := I.wf _ _ hnode b (by simp [Node.args])
      cases hr : reaches S x (n + 1) n with
      | false =>
        rw [if_neg (by simp)]
        exact ret_zero I (fun ρ i v hd => isDeriv_zero I.wf hr hd)
      | true =>
        rw [if_pos rfl]
        cases hc : S.cache n x with
        | some d =>
          obtain ⟨c1, c2, c3⟩ := I.cache n x d hc
          exact ⟨d, S, rfl, I, Ext.refl S, c2, fun c ρ i v h => c3 c ρ i v h, False.elim⟩
        | none =>
          obtain ⟨ga, S1, h1, h2, h3, h4, h5, _⟩ := ih a S I (by omega) (by omega) hx
          have hb1 : b < S1.nodes.length := Nat.lt_of_lt_of_le (by omega) h3.length
          obtain ⟨gb, S1', h1', h2', h3', h4', h5', _⟩ := ih b S1 h2 (by omega) hb1 (h3.node hx)
          simp only [h1, h1', Outcome.ok_bind]
          have e := h3.trans h3'
          have l := e.length
          obtain ⟨d, S2, g1, g2, g3, g4, g5, _⟩ := ginit2_builds (env := env) h2' k a b ga gb (by omega) (by omega)
            (Nat.lt_of_lt_of_le h4 h3'.length) h4' ((I.nsb n k a b hnode).2.mono e (by omega))
            (I.nocond.imp id (fun h => h.2 k (I.ask2 n k a b hnode)))
          have key : Builds C env.fmt S (ginit2 env k a b ga gb S1') (IsDeriv S x n) False := by
            refine ⟨d, S2, g1, g2, e.trans g3, g4, fun c ρ i v hv => ?_, False.elim⟩
            obtain ⟨u, w, p, q, hu, hw, hp, hq, hs, rfl⟩ := isDeriv_bin hnode hv
            have c1 := c.of_ext g3
            have hq' : IsDeriv S1 x b ρ i q := by
              obtain ⟨q1, F, q2, q3⟩ := hq
              exact ⟨q1.mono h3, F, fun t => (q2 t).mono h3, q3⟩
            exact g5 c ρ i _ ⟨u, w, p, q, hu.mono e, hw.mono e, (h5 (c1.of_ext h3') ρ i p hp).mono h3', h5' c1 ρ i q hq', hs, rfl⟩
          exact setCache_builds hn I.wf key

end Verif.Expr
