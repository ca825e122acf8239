import Verif.Props.Backprop
/-!
# C60: the operators on terms

Every operator, applied to two operands of the same size, or to an operand and a constant, or to two constants, builds
a node that evaluates to the operation on the entries, whatever folding it does on the way.
-/
namespace Verif.Props
open Spec Backprop
open Expr (K1 K2 ofCmp)
open scoped Classical
set_option linter.unusedTactic false
set_option linter.unreachableTactic false

variable {shp : Backprop.Leaf → List Nat} {val : Backprop.Leaf → Nat → Nat → ℝ}

/-- An operand of size `n × b` with entries `f`: a constant node, or a well-typed term. -/
def IsOperand (shp : Backprop.Leaf → List Nat) (val : Backprop.Leaf → Nat → Nat → ℝ) (a : Term) (n b : Nat) (f : Nat → Nat → ℝ) : Prop :=
  (∃ c, a = .const c ∧ f = fun _ _ => c) ∨ (Typed shp a ∧ dims shp a = (n, b) ∧ f = den shp val a)

theorem IsOperand.is {a : Term} {n b : Nat} {f : Nat → Nat → ℝ} (h : IsOperand shp val a n b f) : Is shp val a n b f := by
  rcases h with ⟨c, rfl, rfl⟩ | ⟨h1, h2, rfl⟩
  · exact .inl ⟨c, rfl, fun _ _ _ _ => rfl⟩
  · exact .inr ⟨h1, h2, fun _ _ _ _ => rfl⟩

variable {a e : Term} {n b : Nat} {f g : Nat → Nat → ℝ}

/-- `+`, `-` and `*` and the comparisons build nodes that evaluate entry by entry. -/
theorem c60_operators (env : Verif.Env ℝ) (hm : ∀ n, env.fits n = true) (on : Bool) (ρ : Backprop.Leaf → Tensor ℝ)
    (hρ : ∀ l, Holds (ρ l) (shp l) (fun c => val l (c.getD 0 0) (c.getD 1 0)))
    (ha : IsOperand shp val a n b f) (he : IsOperand shp val e n b g) :
    (∃ t, eval env on ρ (add a e) = .ok t ∧ Represents t n b (fun i j => f i j + g i j)) ∧
    (∃ t, eval env on ρ (sub a e) = .ok t ∧ Represents t n b (fun i j => f i j - g i j)) ∧
    (∃ t, eval env on ρ (mul a e) = .ok t ∧ Represents t n b (fun i j => f i j * g i j)) ∧
    ∀ name cmp, ∃ t, eval env on ρ (Backprop.cond name cmp a e) = .ok t ∧
      Represents t n b (fun i j => if cmp (f i j) (g i j) then 1 else 0) := by
  have go : ∀ {d : Term} {F : Nat → Nat → ℝ}, Is shp val d n b F → ∃ t, eval env on ρ d = .ok t ∧ Represents t n b F := by
    intro d F h
    obtain ⟨t, h1, h2, _⟩ := eval_is env hm on ρ hρ h
    exact ⟨t, h1, h2⟩
  refine ⟨go (is_add ha.is he.is), go (is_sub ha.is he.is), go (is_mul ha.is he.is), fun name cmp => go ?_⟩
  rcases ha.is with ⟨x, rfl, h2⟩ | ⟨h1, h2, h3⟩
  · show Is shp val (unop (.condL name cmp x) e) n b _
    rcases he.is with ⟨y, rfl, h2'⟩ | ⟨h1', h2', h3'⟩
    · exact .inl ⟨_, rfl, fun i j hi hj => by beta_reduce; rw [h2 i j hi hj, h2' i j hi hj]; rfl⟩
    · rw [unop_nc h1'.nc]
      exact (un_is (k := .condL name cmp x) (by simp) h1' h2' h3').congr (fun i j hi hj => by rw [h2 i j hi hj]; rfl)
  · rcases he.is with ⟨y, rfl, h2'⟩ | ⟨h1', h2', h3'⟩
    · have : Backprop.cond name cmp a (.const y) = unop (.condR name cmp y) a := by
        cases a <;> first | rfl | exact h1.elim
      rw [this, unop_nc h1.nc]
      exact (un_is (k := .condR name cmp y) (by simp) h1 h2 h3).congr (fun i j hi hj => by rw [h2' i j hi hj]; rfl)
    · have : Backprop.cond name cmp a e = .bin (.cond name cmp) a e := by
        cases a <;> first | exact h1.elim | (cases e <;> first | rfl | exact h1'.elim)
      rw [this]
      exact bin_is (k := .cond name cmp) h1 h2 h3 h1' h2' h3'

/-- `/` builds a node that evaluates to the quotients, unless the divisor is the constant zero (`c60_div_zero`), or a
node is divided by itself and has entries that are zero. -/
theorem c60_div (env : Verif.Env ℝ) (hm : ∀ n, env.fits n = true) (on : Bool) (ρ : Backprop.Leaf → Tensor ℝ)
    (hρ : ∀ l, Holds (ρ l) (shp l) (fun c => val l (c.getD 0 0) (c.getD 1 0)))
    (ha : IsOperand shp val a n b f) (he : IsOperand shp val e n b g) (h0 : e ≠ .const 0)
    (hs : a = e → ∀ i j, i < n → j < b → g i j ≠ 0) :
    ∃ r t, div a e = .ok r ∧ eval env on ρ r = .ok t ∧ Represents t n b (fun i j => f i j / g i j) := by
  have go : ∀ {d : Term} {F : Nat → Nat → ℝ}, Is shp val d n b F → ∃ t, eval env on ρ d = .ok t ∧ Represents t n b F := by
    intro d F h
    obtain ⟨t, h1, h2, _⟩ := eval_is env hm on ρ hρ h
    exact ⟨t, h1, h2⟩
  have key : ∃ r, div a e = .ok r ∧ Is shp val r n b (fun i j => f i j / g i j) := by
    by_cases hae : a = e
    · refine ⟨.const 1, by unfold div; rw [if_pos hae], .inl ⟨1, rfl, fun i j hi hj => ?_⟩⟩
      subst hae
      beta_reduce; rw [is_same ha.is he.is i j hi hj, div_self (hs rfl i j hi hj)]
    · rcases he.is with ⟨y, rfl, h2'⟩ | ⟨h1', h2', h3'⟩
      · have hy : y ≠ 0 := fun hy => h0 (by rw [hy])
        rcases ha.is with ⟨x, rfl, h2⟩ | ⟨h1, h2, h3⟩
        · have : div (.const x) (.const y) = if x = 0 then .ok (.const 0) else divL x (.const y) := by
            unfold div; rw [if_neg hae]
          rw [this]
          by_cases hx : x = 0
          · rw [if_pos hx]
            exact ⟨_, rfl, .inl ⟨0, rfl, fun i j hi hj => by beta_reduce; rw [h2 i j hi hj, hx, zero_div]⟩⟩
          · rw [if_neg hx]
            refine ⟨.const (x / y), ?_, .inl ⟨x / y, rfl, fun i j hi hj => by beta_reduce; rw [h2 i j hi hj, h2' i j hi hj]⟩⟩
            show (if y = 0 then _ else _) = _
            rw [if_neg hy]
        · have : div a (.const y) = if y = 0 then .throw .logicError else divR a y := by
            unfold div; rw [if_neg hae]
            cases a <;> first | rfl | exact h1.elim
          rw [this, if_neg hy]
          obtain ⟨r, hr, hr'⟩ := is_divR y hy ha.is
          exact ⟨r, hr, hr'.congr (fun i j hi hj => by beta_reduce; rw [h2' i j hi hj])⟩
      · rcases ha.is with ⟨x, rfl, h2⟩ | ⟨h1, h2, h3⟩
        · have : div (.const x) e = if x = 0 then .ok (.const 0) else divL x e := by
            unfold div; rw [if_neg hae]
          rw [this]
          by_cases hx : x = 0
          · rw [if_pos hx]; exact ⟨_, rfl, .inl ⟨0, rfl, fun i j hi hj => by beta_reduce; rw [h2 i j hi hj, hx, zero_div]⟩⟩
          · rw [if_neg hx]
            obtain ⟨r, hr, hr'⟩ := is_divL x h1' he.is
            exact ⟨r, hr, hr'.congr (fun i j hi hj => by beta_reduce; rw [h2 i j hi hj])⟩
        · have : div a e = .ok (.bin .div a e) := by
            rw [← node2_typed (k := .div) h1 h1']
            unfold div; rw [if_neg hae]
            cases a <;> first | exact h1.elim | (cases e <;> first | rfl | exact h1'.elim)
          exact ⟨_, this, bin_is (k := .div) h1 h2 h3 h1' h2' h3'⟩
  obtain ⟨r, h1, h2⟩ := key
  obtain ⟨t, h3, h4⟩ := go h2
  exact ⟨r, t, h1, h3, h4⟩

/-- Division by the constant zero throws, except of the same constant by itself. -/
theorem c60_div_zero (ha : IsOperand shp val a n b f) : div a (.const 0) = if a = .const 0 then .ok (.const 1) else .throw .logicError := by
  unfold div
  by_cases h : a = .const 0
  · rw [if_pos h, if_pos h]
  · rw [if_neg h, if_neg h]
    rcases ha with ⟨x, rfl, _⟩ | ⟨h1, _⟩
    · have hx : x ≠ 0 := fun hx => h (by rw [hx])
      show (if x = 0 then _ else divL x (.const 0)) = _
      rw [if_neg hx]
      show (if (0 : ℝ) = 0 then _ else _) = _
      rw [if_pos rfl]
    · cases a <;> first | exact h1.elim | (show (if (0 : ℝ) = 0 then _ else _) = _; rw [if_pos rfl])

/-- Bias addition along the batch with a constant instead of a bias adds it to every entry. -/
theorem c60_axial_const (env : Verif.Env ℝ) (hm : ∀ n, env.fits n = true) (on : Bool) (ρ : Backprop.Leaf → Tensor ℝ)
    (hρ : ∀ l, Holds (ρ l) (shp l) (fun c => val l (c.getD 0 0) (c.getD 1 0))) (ha : IsOperand shp val a n b f) (y : ℝ) :
    (∃ t, eval env on ρ (addAxial a (.const y)) = .ok t ∧ Represents t n b (fun i j => f i j + y)) ∧
    ∃ t, eval env on ρ (addAxial (.const y) a) = .ok t ∧ Represents t n b (fun i j => y + f i j) := by
  obtain ⟨h1, _⟩ := c60_operators env hm on ρ hρ ha (e := .const y) (.inl ⟨y, rfl, rfl⟩)
  obtain ⟨h2, _⟩ := c60_operators env hm on ρ hρ (a := .const y) (.inl ⟨y, rfl, rfl⟩) ha
  refine ⟨?_, h2⟩
  have : addAxial a (.const y) = add a (.const y) := by cases a <;> rfl
  rw [this]; exact h1

/-- Comparisons have the wrong derivative here too (`c36_conditional_left`, `c36_conditional_right`): the predicate is
applied to the derivatives. -/
theorem c60_conditional_wrong (v : Nat) (name : List Char) (cmp : ℝ → ℝ → Bool) (c : ℝ) :
    derive v (.un (.condL name cmp c) (.leaf ⟨true, v⟩)) = .ok (.const (if cmp 0 1 then 1 else 0)) ∧
    derive v (.un (.condR name cmp c) (.leaf ⟨true, v⟩)) = .ok (.const (if cmp 1 0 then 1 else 0)) := by
  constructor <;> simp [derive, info, uses, inherit1, ginit1, unop, K1.fn, ofCmp, Info.derive, Info.list, jacobianCall, Outcome.ok_bind]

/-- The hypotheses are met: a placeholder and a constant. -/
example (val : Backprop.Leaf → Nat → Nat → ℝ) :
    IsOperand (fun _ => [2, 3]) val (.leaf ⟨false, 0⟩) 2 3 (val ⟨false, 0⟩) ∧ IsOperand (fun _ => [2, 3]) val (.const 5) 2 3 (fun _ _ => 5) ∧
      (Term.const 5 ≠ .const 0) := by
  refine ⟨.inr ⟨⟨2, 3, by decide, by decide, .inl rfl⟩, rfl, rfl⟩, .inl ⟨5, rfl, rfl⟩, by simp⟩

open Finset in
/-- A bias that is itself computed from the variable: the sum over the batch is applied after the transfer functions of
the products below the bias instead of before, so the gradient of the affine node is the gradient of the bias summed
along the variable's second axis, where it should be the gradient of the bias times the size of the batch. -/
theorem c60_computed_bias (env : Verif.Env ℝ) (hm : ∀ n, env.fits n = true) (on : Bool) (ρ : Backprop.Leaf → Tensor ℝ)
    (hρ : ∀ l, Holds (ρ l) (shp l) (fun c => val l (c.getD 0 0) (c.getD 1 0))) (v : Nat) (k e a : Term)
    (hk : Chain shp val v (fun a => (info v a).grad = .ok (.const 0)) k) (he : Around shp val v k e)
    (hc : ∀ c, (info v e).grad ≠ .ok (.const c)) (hf : Free v a) (hd : dims shp e = ((dims shp a).1, 1)) :
    ∃ (d : Term) (t : Tensor ℝ) (G : Nat → Nat → ℝ), derive v (.axial a e) = .ok d ∧ eval env on ρ d = .ok t ∧
      Batch t (leafSize (shp ⟨true, v⟩)).1 1 (fun p _ => ∑ q ∈ range (leafSize (shp ⟨true, v⟩)).2, G p q) ∧
      ∀ p q, p < (leafSize (shp ⟨true, v⟩)).1 → q < (leafSize (shp ⟨true, v⟩)).2 →
        HasDerivAt (fun x => ∑ i ∈ range (dims shp (.axial a e)).1, ∑ j ∈ range (dims shp (.axial a e)).2, den shp (setAt val v p q x) (.axial a e) i j)
          ((dims shp a).2 * G p q) (val ⟨true, v⟩ p q) := by
  obtain ⟨c', gf, h1, h2⟩ := core_of_chain hk
  obtain ⟨gf', h3⟩ := inv_of_around he ⟨gf, h2⟩
  obtain ⟨d, G, h4, h5, h6, h7⟩ := derive_of_inv h1 h3 (.inr hc)
  obtain ⟨g, hg, _⟩ := h3.grad
  have hne : a ≠ e := by
    rintro rfl
    have := free_uses.1 hf
    rw [h3.used] at this; cases this
  obtain ⟨f1, f2⟩ := info_free hf
  have hj : inheritArgs a e (info v a).jac (info v e).jac = inherit1 (info v e).jac := by
    unfold inheritArgs; rw [if_neg hne, f2, inherit2_none_left]
  have hder : derive v (.axial a e) = .ok (.rsum d) := by
    unfold derive Info.derive at h4 ⊢
    rw [info_list, hg, Outcome.ok_bind] at h4
    have hl : (info v (.axial a e)).list = axialJacobian :: (info v e).list := by
      rw [Info.list, info, hj]
      simp only
      rw [if_pos h3.used, info_list]
      cases inherit1 (info v e).jac <;> rfl
    have hgr : (info v (.axial a e)).grad = .ok g := by
      rw [info, hj]
      simp only [argGrad, inherit1_not_terminal, Bool.false_eq_true, if_false, f1, hg]
      rw [if_pos (by simp [h3.used])]
      simp [addAxial]
    rw [hgr, Outcome.ok_bind, hl, jacobianCall, info_list, h4]
    rfl
  rcases h6 with ⟨c, hc', _⟩ | ⟨q1, q2, q3⟩
  · exact absurd hc' (h5 hc c)
  obtain ⟨t, t1, t2⟩ := c60_eval env hm on ρ hρ (.rsum d) q1
  have ds : dims shp (.rsum d) = ((leafSize (shp ⟨true, v⟩)).1, 1) := by show ((dims shp d).1, 1) = _; rw [q2]
  rw [ds] at t2
  refine ⟨_, t, G, hder, t1, batch_congr t2 (fun i j hi _ => ?_), fun p q hp hq => ?_⟩
  · show ∑ j ∈ range (dims shp d).2, _ = _
    rw [q2]
    exact sum_congr rfl (fun j hj => q3 i j hi (mem_range.1 hj))
  · have h8 := h7 p q hp hq
    rw [hd] at h8
    simp only [sum_range_one] at h8
    have h9 := (h8.const_mul ((dims shp a).2 : ℝ)).add_const (∑ i ∈ range (dims shp a).1, ∑ j ∈ range (dims shp a).2, den shp val a i j)
    refine h9.congr_of_eventuallyEq (Filter.Eventually.of_forall fun x => ?_)
    show ∑ i ∈ range (dims shp a).1, ∑ j ∈ range (dims shp a).2, (den shp (setAt val v p q x) a i j + den shp (setAt val v p q x) e i 0) = _
    simp only [den_free hf, sum_add_distrib, sum_const, card_range, nsmul_eq_mul, ← mul_sum]
    ring

/-- A bias `x · W` for a batch of three meets the hypotheses. -/
example : ∃ (shp : Backprop.Leaf → List Nat) (k a : Term), Chain shp (fun _ _ _ => (1 : ℝ)) 0 (fun a => (info 0 a).grad = .ok (.const 0)) k ∧
    Around shp (fun _ _ _ => (1 : ℝ)) 0 k k ∧ (∀ c, (info 0 k).grad ≠ .ok (.const c)) ∧ Free 0 a ∧ dims shp k = ((dims shp a).1, 1) ∧ (dims shp a).2 = 3 := by
  let shp : Backprop.Leaf → List Nat := fun l => if l = ⟨true, 0⟩ then [4, 2] else if l = ⟨false, 0⟩ then [2, 1] else [4, 3]
  have tw : Typed shp (.leaf ⟨true, 0⟩) := ⟨4, 2, by decide, by decide, .inl rfl⟩
  have tx : Typed shp (.leaf ⟨false, 0⟩) := ⟨2, 1, by decide, by decide, .inl rfl⟩
  refine ⟨shp, .mm false false (.leaf ⟨false, 0⟩) (.leaf ⟨true, 0⟩), .leaf ⟨false, 1⟩, ?_, .here, ?_, by simp [Free], rfl, rfl⟩
  · refine .right (k := .leaf ⟨true, 0⟩) (.var tw) .here ?_ tx (by simp [Free]) rfl
    simp [info]
  · intro c h
    simp [info, uses, inheritArgs, inherit2, inherit1, argGrad, isTerminal, Backprop.cond] at h

end Verif.Props
