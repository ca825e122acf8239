import Verif.Lemmas.Backprop
/-!
# The gradient closures and transfer functions on terms
-/
namespace Verif.Backprop
open Spec Expr Finset
open scoped Classical
set_option linter.unusedTactic false

variable {shp : Leaf → List Nat} {val : Leaf → Nat → Nat → ℝ} {v : Nat}
variable {a d e g : Term} {n b : Nat} {f h gf : Nat → Nat → ℝ}

theorem typed_unop {k : K1} (hk : ∀ c, k = .divR c → c ≠ 0) (ha : Typed shp a) : Typed shp (unop k a) := by
  rw [unop_nc ha.nc]; exact ⟨ha, hk⟩

theorem typed_mul (hd : Typed shp d) (he : Typed shp e) (hde : dims shp d = dims shp e) : Typed shp (mul d e) := by
  by_cases hne : d = e
  · subst hne
    unfold mul pow
    rw [if_pos rfl, if_neg (by norm_num), if_neg (by norm_num), unop_nc hd.nc]; exact ⟨hd, by simp⟩
  · rw [mul_nc hne hd he]; exact ⟨hd, .inl he, .inl hde⟩

theorem typed_mulL {c : ℝ} (hc : c ≠ 0) (hd : Typed shp d) : Typed shp (mulL c d) := by
  rw [mulL_nc c hd.nc, if_neg (Ne.symm hc)]
  by_cases h4 : 1 = c
  · rw [if_pos h4]; exact hd
  · rw [if_neg h4]
    by_cases h5 : -1 = c
    · rw [if_pos h5]
      rcases neg_typed hd with ⟨x, rfl, hx⟩ | hx <;> rw [hx]
      · exact hd.1
      · exact ⟨hd, by simp⟩
    · rw [if_neg h5]; exact ⟨hd, by simp⟩

theorem is_self (ha : Typed shp a) : Is shp val a (dims shp a).1 (dims shp a).2 (den shp val a) :=
  .inr ⟨ha, rfl, fun _ _ _ _ => rfl⟩

/-- The gradient closure of a smooth unary operation multiplies by the derivative. -/
theorem is_ginit1 (k : K1) (hk : ∀ c, k = .divR c → c ≠ 0) (ha : Typed shp a)
    (hg : Is shp val g (dims shp a).1 (dims shp a).2 gf)
    (hs : ∀ i j, i < (dims shp a).1 → j < (dims shp a).2 → SmoothAt1 k (den shp val a i j)) :
    ∃ r, ginit1 k a g = .ok r ∧ Is shp val r (dims shp a).1 (dims shp a).2 (fun i j => d1 k (den shp val a i j) * gf i j) := by
  have hA := is_self (val := val) ha
  obtain ⟨h1, h2⟩ := typed_pos ha
  cases k with
  | ident => exact ⟨_, rfl, hg.congr (fun i j _ _ => by simp [d1])⟩
  | neg => exact ⟨_, rfl, (is_neg hg).congr (fun i j _ _ => by simp [d1])⟩
  | abs => exact (hs 0 0 h1 h2).elim
  | sin => exact ⟨_, rfl, (is_mul hg (is_unop (k := .cos) (by simp) hA)).congr (fun i j _ _ => by simp [d1, K1.fn]; ring)⟩
  | cos => exact ⟨_, rfl, (is_mul (is_neg hg) (is_unop (k := .sin) (by simp) hA)).congr (fun i j _ _ => by simp [d1, K1.fn]; ring)⟩
  | tan =>
    have hc := is_unop (k := .cos) (by simp) hA
    have tc := typed_unop (k := .cos) (by simp) ha
    obtain ⟨r, hr, hi⟩ := is_div hg (typed_mul tc tc rfl) (is_mul hc hc)
      (fun i j hi hj => by have := hs i j hi hj; exact mul_ne_zero this this)
    exact ⟨r, hr, hi.congr (fun i j _ _ => by simp [d1, K1.fn]; ring)⟩
  | csc =>
    have hc := is_unop (k := .sin) (by simp) hA
    have ht := is_unop (k := .tan) (by simp) hA
    obtain ⟨r, hr, hi⟩ := is_div (is_neg hg) (typed_mul (typed_unop (k := .sin) (by simp) ha) (typed_unop (k := .tan) (by simp) ha)
        (by rw [unop_nc ha.nc, unop_nc ha.nc]; rfl)) (is_mul hc ht)
      (fun i j hi hj => by
        have := hs i j hi hj
        refine mul_ne_zero this.1 ?_
        show Real.tan _ ≠ 0
        rw [Real.tan_eq_sin_div_cos]; exact div_ne_zero this.1 this.2)
    exact ⟨r, hr, hi.congr (fun i j _ _ => by simp [d1, K1.fn]; ring)⟩
  | sec =>
    obtain ⟨r, hr, hi⟩ := is_div (is_mul hg (is_unop (k := .tan) (by simp) hA)) (typed_unop (k := .cos) (by simp) ha)
      (is_unop (k := .cos) (by simp) hA) (fun i j hi hj => hs i j hi hj)
    exact ⟨r, hr, hi.congr (fun i j _ _ => by simp [d1, K1.fn]; ring)⟩
  | cot =>
    have hc := is_unop (k := .csc) (by simp) hA
    exact ⟨_, rfl, (is_mul (is_mul (is_neg hg) hc) hc).congr (fun i j _ _ => by simp [d1, K1.fn]; ring)⟩
  | exp => exact ⟨_, rfl, (is_mul hg (is_unop (k := .exp) (by simp) hA)).congr (fun i j _ _ => by simp [d1, K1.fn]; ring)⟩
  | sqrt =>
    have hc := is_mulL 2 (is_unop (k := .sqrt) (by simp) hA)
    obtain ⟨r, hr, hi⟩ := is_div hg (typed_mulL two_ne_zero (typed_unop (k := .sqrt) (by simp) ha)) hc
      (fun i j hi hj => by
        have h0 : 0 < den shp val a i j := hs i j hi hj
        exact mul_ne_zero two_ne_zero (Real.sqrt_pos.2 h0).ne')
    exact ⟨r, hr, hi.congr (fun i j _ _ => by simp [d1, K1.fn]; ring)⟩
  | round => exact (hs 0 0 h1 h2).elim
  | log =>
    obtain ⟨r, hr, hi⟩ := is_div hg ha hA (fun i j hi hj => by have h0 : 0 < den shp val a i j := hs i j hi hj; exact h0.ne')
    exact ⟨r, hr, hi.congr (fun i j _ _ => by simp [d1]; ring)⟩
  | pow s => exact ⟨_, rfl, (is_mul (is_mulL s hg) (is_pow (s - 1) hA)).congr (fun i j _ _ => by simp [d1]; ring)⟩
  | clip => exact (hs 0 0 h1 h2).elim
  | addL c => exact ⟨_, rfl, hg.congr (fun i j _ _ => by simp [d1])⟩
  | addR c => exact ⟨_, rfl, hg.congr (fun i j _ _ => by simp [d1])⟩
  | subL c => exact ⟨_, rfl, (is_neg hg).congr (fun i j _ _ => by simp [d1])⟩
  | subR c => exact ⟨_, rfl, hg.congr (fun i j _ _ => by simp [d1])⟩
  | mulL c => exact ⟨_, rfl, (is_mulL c hg).congr (fun i j _ _ => by simp [d1])⟩
  | mulR c => exact ⟨_, rfl, (is_mulL c hg).congr (fun i j _ _ => by simp [d1])⟩
  | divL c =>
    obtain ⟨r, hr, hi⟩ := is_div (is_mulL (-c) hg) (typed_mul ha ha rfl) (is_mul hA hA)
      (fun i j hi hj => by have := hs i j hi hj; exact mul_ne_zero this this)
    exact ⟨r, hr, hi.congr (fun i j _ _ => by simp [d1]; ring)⟩
  | divR c =>
    obtain ⟨r, hr, hi⟩ := is_divR c (hk c rfl) hg
    exact ⟨r, hr, hi.congr (fun i j _ _ => by simp [d1]; ring)⟩
  | condL => exact (hs 0 0 h1 h2).elim
  | condR => exact (hs 0 0 h1 h2).elim

/-- The gradient closure of a smooth binary operation. -/
theorem is_ginit2 (k : K2) {c : Term} {ga gc : Term} {gaf gcf : Nat → Nat → ℝ} (ha : Typed shp a) (hc : Typed shp c)
    (hac : dims shp a = dims shp c) (hga : Is shp val ga (dims shp a).1 (dims shp a).2 gaf)
    (hgc : Is shp val gc (dims shp a).1 (dims shp a).2 gcf)
    (hs : ∀ i j, i < (dims shp a).1 → j < (dims shp a).2 → SmoothAt2 k (den shp val a i j) (den shp val c i j)) :
    ∃ r, ginit2 k a c ga gc = .ok r ∧ Is shp val r (dims shp a).1 (dims shp a).2
      (fun i j => d2 k (den shp val a i j) (den shp val c i j) (gaf i j) (gcf i j)) := by
  have hA := is_self (val := val) ha
  have hC := is_self (val := val) hc
  rw [← hac] at hC
  obtain ⟨h1, h2⟩ := typed_pos ha
  cases k with
  | add => exact ⟨_, rfl, is_add hga hgc⟩
  | sub => exact ⟨_, rfl, is_sub hga hgc⟩
  | mul => exact ⟨_, rfl, is_add (is_mul hga hC) (is_mul hgc hA)⟩
  | div =>
    exact is_div (is_sub (is_mul hga hC) (is_mul hgc hA)) (typed_mul hc hc rfl) (is_mul hC hC)
      (fun i j hi hj => by have := hs i j hi hj; exact mul_ne_zero this this)
  | cond => exact (hs 0 0 h1 h2).elim

theorem jacobianCall_append (l : List (Term → Outcome Term)) (F : Term → Outcome Term) (R : Term) :
    jacobianCall (l ++ [F]) R = F R >>= jacobianCall l := by
  induction l with
  | nil => show (jacobianCall [] R >>= F) = _
           show F R = _
           cases F R <;> rfl
  | cons x l ih =>
    show (jacobianCall (l ++ [F]) R >>= x) = _
    rw [ih]
    cases F R <;> rfl

/-- A variable that does not occur: gradient zero, no transfer functions. -/
theorem info_free {e : Term} (h : Free v e) : (info v e).grad = .ok (.const 0) ∧ (info v e).jac = none := by
  induction e with
  | leaf l => exact ⟨by simp only [info]; rw [if_neg h], rfl⟩
  | const c => exact ⟨rfl, rfl⟩
  | un k a ih =>
    obtain ⟨h1, h2⟩ := ih h
    have hu := free_uses.1 h
    simp only [uses] at hu
    exact ⟨by simp [info, hu], by simp [info, h2, inherit1]⟩
  | bin k a b iha ihb =>
    obtain ⟨_, h2⟩ := iha h.1
    obtain ⟨_, h4⟩ := ihb h.2
    have ha := free_uses.1 h.1
    have hb := free_uses.1 h.2
    exact ⟨by simp [info, ha, hb], by simp [info, h2, h4, inheritArgs, inherit2, inherit1]⟩
  | mm fa fb a b iha ihb =>
    obtain ⟨_, h2⟩ := iha h.1
    obtain ⟨_, h4⟩ := ihb h.2
    have ha := free_uses.1 h.1
    have hb := free_uses.1 h.2
    exact ⟨by simp [info, ha, hb], by simp [info, ha, hb, h2, h4, inheritArgs, inherit2, inherit1]⟩
  | axial a b iha ihb =>
    obtain ⟨_, h2⟩ := iha h.1
    obtain ⟨_, h4⟩ := ihb h.2
    have ha := free_uses.1 h.1
    have hb := free_uses.1 h.2
    exact ⟨by simp [info, ha, hb], by simp [info, hb, h2, h4, inheritArgs, inherit2, inherit1]⟩
  | tr a ih =>
    obtain ⟨h1, h2⟩ := ih h
    have hu := free_uses.1 h
    simp only [uses] at hu
    exact ⟨by simp [info, hu], by simp [info, h2, inherit1]⟩
  | rsum a ih =>
    obtain ⟨h1, h2⟩ := ih h
    have hu := free_uses.1 h
    simp only [uses] at hu
    exact ⟨by simp [info, hu], by simp [info, h2, inherit1]⟩
  | sum0 a ih =>
    obtain ⟨h1, h2⟩ := ih h
    have hu := free_uses.1 h
    simp only [uses] at hu
    exact ⟨by simp [info, hu], by simp [info, h2, inherit1]⟩
  | max0 a ih =>
    obtain ⟨h1, h2⟩ := ih h
    have hu := free_uses.1 h
    simp only [uses] at hu
    exact ⟨by simp [info, hu], by simp [info, h2, inherit1]⟩
  | sumAll a ih =>
    obtain ⟨h1, h2⟩ := ih h
    have hu := free_uses.1 h
    simp only [uses] at hu
    exact ⟨by simp [info, hu], by simp [info, h2, inherit1]⟩
  | nelems a ih => exact ⟨rfl, rfl⟩
  | grp x a ih =>
    obtain ⟨h1, h2⟩ := ih h
    have hu := free_uses.1 h
    simp only [uses] at hu
    exact ⟨by simp [info, hu], by simp [info, h2, inherit1]⟩
  | binAx k x l a b iha ihb =>
    obtain ⟨_, h2⟩ := iha h.1
    obtain ⟨_, h4⟩ := ihb h.2
    have ha := free_uses.1 h.1
    have hb := free_uses.1 h.2
    have hl : uses v (if l then a else b) = false := by cases l <;> assumption
    exact ⟨by simp [info, ha, hb], by simp [info, hl, h2, h4, inheritArgs, inherit2, inherit1]⟩
  | l2 a ih =>
    obtain ⟨h1, h2⟩ := ih h
    have hu := free_uses.1 h
    simp only [uses] at hu
    exact ⟨by simp [info, hu], by simp [info, h2, inherit1]⟩
  | clipn c a ih =>
    obtain ⟨h1, h2⟩ := ih h
    have hu := free_uses.1 h
    simp only [uses] at hu
    exact ⟨by simp [info, hu], by simp [info, h2, inherit1, inherit2]⟩

theorem den_free {e : Term} (h : Free v e) (p q : Nat) (x : ℝ) : den shp (setAt val v p q x) e = den shp val e := by
  induction e with
  | leaf l => funext i j; simp only [den, setAt]; rw [if_neg (fun h' => h h'.1)]
  | const c => rfl
  | un k a ih => funext i j; simp only [den, ih h]
  | bin k a b iha ihb => funext i j; simp only [den, iha h.1, ihb h.2]
  | mm fa fb a b iha ihb => funext i j; simp only [den, iha h.1, ihb h.2]
  | axial a b iha ihb => funext i j; simp only [den, iha h.1, ihb h.2]
  | tr a ih => funext i j; simp only [den, ih h]
  | rsum a ih => funext i j; simp only [den, ih h]
  | sum0 a ih => funext i j; simp only [den, ih h]
  | max0 a ih => funext i j; simp only [den, ih h]
  | sumAll a ih => funext i j; simp only [den, ih h]
  | nelems a ih => rfl
  | grp y a ih => funext i j; simp only [den, ih h]
  | binAx k y l a b iha ihb => funext i j; cases l <;> simp only [den, iha h.1, ihb h.2]
  | l2 a ih => funext i j; simp only [den, ih h]
  | clipn c a ih => funext i j; simp only [den, ih h]

theorem setAt_self (p q : Nat) : setAt val v p q (val ⟨true, v⟩ p q) = val := by
  funext l i j
  unfold setAt
  split
  · rename_i h; obtain ⟨rfl, rfl, rfl⟩ := h; rfl
  · rfl

theorem inherit1_idem (j : Option Jac) : inherit1 (inherit1 j) = inherit1 j := by
  cases j with
  | none => rfl
  | some j =>
    by_cases h : j.list.isEmpty
    · simp [inherit1, inherit, h]
    · simp [inherit1, inherit, h]

theorem inherit1_not_terminal (j : Option Jac) : isTerminal (inherit1 j) = false := by
  cases j with
  | none => rfl
  | some j =>
    by_cases h : j.list.isEmpty
    · simp [inherit1, inherit, h, isTerminal]
    · simp [inherit1, inherit, h, isTerminal]

theorem inherit2_none_right (j : Option Jac) : inherit2 j none = inherit1 j := by
  unfold inherit2
  cases inherit1 j <;> rfl

theorem inherit2_none_left (j : Option Jac) : inherit2 none j = inherit1 j := rfl

theorem inherit2_same (i j : Option Jac) (h : inherit1 i = inherit1 j) : inherit2 i j = inherit1 i := by
  unfold inherit2
  rw [← h]
  cases inherit1 i with
  | none => rfl
  | some j => simp

theorem inheritArgs_same {x y : Term} (i j : Option Jac) (h : inherit1 i = inherit1 j) : inheritArgs x y i j = inherit1 i := by
  unfold inheritArgs
  split
  · rfl
  · exact inherit2_same i j h

def listOf : Option Jac → List (Term → Outcome Term)
  | some j => j.list
  | none => []

theorem info_list (i : Info) : i.list = listOf (inherit1 i.jac) := by
  unfold Info.list
  cases i.jac with
  | none => rfl
  | some j =>
    by_cases h : j.list.isEmpty
    · simp [inherit1, inherit, h, listOf]; simpa using h
    · simp [inherit1, inherit, h, listOf]

end Verif.Backprop
