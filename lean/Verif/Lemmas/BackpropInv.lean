import Verif.Lemmas.BackpropGrad
/-!
# Differentiation along a chain of matrix products
-/
namespace Verif.Backprop
open Spec Expr Finset
open scoped Classical
set_option linter.unusedTactic false

variable {shp : Leaf → List Nat} {val : Leaf → Nat → Nat → ℝ} {v : Nat}

abbrev Four := Nat → Nat → Nat → Nat → ℝ

/-- `c' i j p q` is the derivative of entry `i j` of the core `k` with respect to entry `p q` of the variable, and the
transfer functions of `k` contract with it. -/
structure Core (shp : Leaf → List Nat) (val : Leaf → Nat → Nat → ℝ) (v : Nat) (k : Term) (c' : Four) : Prop where
  call : ∀ R r, ((info v k).list = [] ∨ ∀ c, R ≠ .const c) → Is shp val R (dims shp k).1 (dims shp k).2 r →
    ∃ d, jacobianCall (info v k).list R = .ok d ∧ ((∀ c, R ≠ .const c) → ∀ c, d ≠ .const c) ∧
      Is shp val d (leafSize (shp ⟨true, v⟩)).1 (leafSize (shp ⟨true, v⟩)).2
        (fun p q => ∑ i ∈ range (dims shp k).1, ∑ j ∈ range (dims shp k).2, r i j * c' i j p q)
  /-- undefined behaviour in the root is undefined behaviour in the gradient -/
  bad : ∀ (env : Verif.Env ℝ) (on : Bool) (ρ : Leaf → Tensor ℝ), (∀ n, env.fits n = true) →
    (∀ l, Holds (ρ l) (shp l) (fun c => val l (c.getD 0 0) (c.getD 1 0))) → ∀ R, (∀ c, R ≠ .const c) → eval env on ρ R = .ub →
    ∃ d, jacobianCall (info v k).list R = .ok d ∧ (∀ c, d ≠ .const c) ∧ eval env on ρ d = .ub

/-- Element-wise dependence of `e` on the core `k`, with local derivative `gf`. -/
structure Inv (shp : Leaf → List Nat) (val : Leaf → Nat → Nat → ℝ) (v : Nat) (k : Term) (c' : Four) (e : Term)
    (gf : Nat → Nat → ℝ) : Prop where
  typed : Typed shp e
  same : dims shp e = dims shp k
  used : uses v e = true
  grad : ∃ g, (info v e).grad = .ok g ∧ Is shp val g (dims shp e).1 (dims shp e).2 gf
  jac : inherit1 (info v e).jac = inherit1 (info v k).jac
  deriv : ∀ i j p q, i < (dims shp e).1 → j < (dims shp e).2 → p < (leafSize (shp ⟨true, v⟩)).1 → q < (leafSize (shp ⟨true, v⟩)).2 →
    HasDerivAt (fun x => den shp (setAt val v p q x) e i j) (gf i j * c' i j p q) (val ⟨true, v⟩ p q)

variable {k a b e : Term} {c' : Four} {gf gg : Nat → Nat → ℝ}

theorem Inv.congr (h : Inv shp val v k c' e gf) (hg : ∀ i j, i < (dims shp e).1 → j < (dims shp e).2 → gf i j = gg i j) :
    Inv shp val v k c' e gg := by
  obtain ⟨g, h1, h2⟩ := h.grad
  exact ⟨h.typed, h.same, h.used, ⟨g, h1, h2.congr hg⟩, h.jac, fun i j p q hi hj hp hq => by
    rw [← hg i j hi hj]; exact h.deriv i j p q hi hj hp hq⟩

theorem inv_un (h : Inv shp val v k c' a gf) (u : K1) (hu : ∀ c, u = .divR c → c ≠ 0)
    (hs : ∀ i j, i < (dims shp a).1 → j < (dims shp a).2 → SmoothAt1 u (den shp val a i j)) :
    Inv shp val v k c' (.un u a) (fun i j => d1 u (den shp val a i j) * gf i j) := by
  obtain ⟨g, h1, h2⟩ := h.grad
  obtain ⟨r, h3, h4⟩ := is_ginit1 u hu h.typed h2 hs
  refine ⟨⟨h.typed, hu⟩, h.same, h.used, ⟨r, ?_, h4⟩, ?_, ?_⟩
  · simp only [info]; rw [if_pos h.used, h1, Outcome.ok_bind, h3]
  · simp only [info]; rw [inherit1_idem, h.jac]
  · intro i j p q hi hj hp hq
    have hd := h.deriv i j p q hi hj hp hq
    have hk := hasDeriv1 u _ (hs i j hi hj)
    have e0 : den shp (setAt val v p q (val ⟨true, v⟩ p q)) a i j = den shp val a i j := by rw [setAt_self]
    rw [← e0] at hk
    have := HasDerivAt.comp (val ⟨true, v⟩ p q) hk hd
    rw [e0] at this
    refine this.congr_deriv ?_
    ring

theorem inv_bin (ha : Inv shp val v k c' a gf) (hb : Inv shp val v k c' b gg) (u : K2)
    (hs : ∀ i j, i < (dims shp a).1 → j < (dims shp a).2 → SmoothAt2 u (den shp val a i j) (den shp val b i j)) :
    Inv shp val v k c' (.bin u a b) (fun i j => d2 u (den shp val a i j) (den shp val b i j) (gf i j) (gg i j)) := by
  obtain ⟨g, h1, h2⟩ := ha.grad
  obtain ⟨g', h1', h2'⟩ := hb.grad
  have hab : dims shp a = dims shp b := ha.same.trans hb.same.symm
  rw [← hab] at h2'
  obtain ⟨r, h3, h4⟩ := is_ginit2 u ha.typed hb.typed hab h2 h2' hs
  have hj : inheritArgs a b (info v a).jac (info v b).jac = inherit1 (info v a).jac := inheritArgs_same _ _ (ha.jac.trans hb.jac.symm)
  have ht := inherit1_not_terminal (info v a).jac
  refine ⟨⟨ha.typed, .inl hb.typed, .inl hab⟩, (dims_bin hab).trans ha.same, by simp [uses, ha.used], ⟨r, ?_, by rw [dims_bin hab]; exact h4⟩, ?_, ?_⟩
  · simp only [info, hj, argGrad, ht]
    rw [if_pos (by simp [ha.used])]
    simp [h1, h1', h3]
  · simp only [info, hj]; rw [inherit1_idem, ha.jac]
  · intro i j p q hi hj hp hq
    rw [dims_bin hab] at hi hj
    simp only [den_bin hab]
    have hd := ha.deriv i j p q hi hj hp hq
    have hd' := hb.deriv i j p q (by rw [← hab]; exact hi) (by rw [← hab]; exact hj) hp hq
    have e0 : den shp (setAt val v p q (val ⟨true, v⟩ p q)) a i j = den shp val a i j := by rw [setAt_self]
    have e1 : den shp (setAt val v p q (val ⟨true, v⟩ p q)) b i j = den shp val b i j := by rw [setAt_self]
    have := hasDeriv2 u _ _ _ _ _ hd hd' (by rw [e0, e1]; exact hs i j hi hj)
    rw [e0, e1] at this
    refine this.congr_deriv ?_
    cases u <;> simp only [d2] <;> ring

theorem inv_binL (ha : Inv shp val v k c' a gf) (hb : Typed shp b) (hf : Free v b) (hab : dims shp a = dims shp b) (u : K2)
    (hs : ∀ i j, i < (dims shp a).1 → j < (dims shp a).2 → SmoothAt2 u (den shp val a i j) (den shp val b i j)) :
    Inv shp val v k c' (.bin u a b) (fun i j => d2 u (den shp val a i j) (den shp val b i j) (gf i j) 0) := by
  obtain ⟨g, h1, h2⟩ := ha.grad
  obtain ⟨h1', hj'⟩ := info_free hf
  have h2' : Is shp val (.const 0) (dims shp a).1 (dims shp a).2 (fun _ _ => 0) := is_const 0
  obtain ⟨r, h3, h4⟩ := is_ginit2 u ha.typed hb hab h2 h2' hs
  have hne : a ≠ b := by rintro rfl; rw [free_uses] at hf; rw [ha.used] at hf; cases hf
  have hj : inheritArgs a b (info v a).jac (info v b).jac = inherit1 (info v a).jac := by
    unfold inheritArgs; rw [if_neg hne, hj', inherit2_none_right]
  have ht := inherit1_not_terminal (info v a).jac
  refine ⟨⟨ha.typed, .inl hb, .inl hab⟩, (dims_bin hab).trans ha.same, by simp [uses, ha.used], ⟨r, ?_, by rw [dims_bin hab]; exact h4⟩, ?_, ?_⟩
  · simp only [info, hj, argGrad, ht]
    rw [if_pos (by simp [ha.used])]
    simp [h1, h1', h3]
  · simp only [info, hj]; rw [inherit1_idem, ha.jac]
  · intro i j p q hi hj hp hq
    rw [dims_bin hab] at hi hj
    simp only [den_bin hab]
    have hd := ha.deriv i j p q hi hj hp hq
    have hd' : HasDerivAt (fun x => den shp (setAt val v p q x) b i j) 0 (val ⟨true, v⟩ p q) := by
      simp only [den_free hf]; exact hasDerivAt_const _ _
    have e0 : den shp (setAt val v p q (val ⟨true, v⟩ p q)) a i j = den shp val a i j := by rw [setAt_self]
    have e1 : den shp (setAt val v p q (val ⟨true, v⟩ p q)) b i j = den shp val b i j := by rw [setAt_self]
    have := hasDeriv2 u _ _ _ _ _ hd hd' (by rw [e0, e1]; exact hs i j hi hj)
    rw [e0, e1] at this
    refine this.congr_deriv ?_
    cases u <;> simp only [d2] <;> ring

theorem inv_binR (hb : Inv shp val v k c' b gf) (ha : Typed shp a) (hf : Free v a) (hab : dims shp a = dims shp b) (u : K2)
    (hs : ∀ i j, i < (dims shp a).1 → j < (dims shp a).2 → SmoothAt2 u (den shp val a i j) (den shp val b i j)) :
    Inv shp val v k c' (.bin u a b) (fun i j => d2 u (den shp val a i j) (den shp val b i j) 0 (gf i j)) := by
  obtain ⟨g, h1, h2⟩ := hb.grad
  obtain ⟨h1', hj'⟩ := info_free hf
  have h2' : Is shp val (.const 0) (dims shp a).1 (dims shp a).2 (fun _ _ => 0) := is_const 0
  rw [← hab] at h2
  obtain ⟨r, h3, h4⟩ := is_ginit2 u ha hb.typed hab h2' h2 hs
  have hne : a ≠ b := by rintro rfl; rw [free_uses] at hf; rw [hb.used] at hf; cases hf
  have hj : inheritArgs a b (info v a).jac (info v b).jac = inherit1 (info v b).jac := by
    unfold inheritArgs; rw [if_neg hne, hj', inherit2_none_left]
  have ht := inherit1_not_terminal (info v b).jac
  refine ⟨⟨ha, .inl hb.typed, .inl hab⟩, (dims_bin hab).trans (hab.trans hb.same), by simp [uses, hb.used], ⟨r, ?_, by rw [dims_bin hab]; exact h4⟩, ?_, ?_⟩
  · simp only [info, hj, argGrad, ht]
    rw [if_pos (by simp [hb.used])]
    simp [h1, h1', h3]
  · simp only [info, hj]; rw [inherit1_idem, hb.jac]
  · intro i j p q hi hj hp hq
    rw [dims_bin hab] at hi hj
    simp only [den_bin hab]
    have hd := hb.deriv i j p q (by rw [← hab]; exact hi) (by rw [← hab]; exact hj) hp hq
    have hd' : HasDerivAt (fun x => den shp (setAt val v p q x) a i j) 0 (val ⟨true, v⟩ p q) := by
      simp only [den_free hf]; exact hasDerivAt_const _ _
    have e0 : den shp (setAt val v p q (val ⟨true, v⟩ p q)) a i j = den shp val a i j := by rw [setAt_self]
    have e1 : den shp (setAt val v p q (val ⟨true, v⟩ p q)) b i j = den shp val b i j := by rw [setAt_self]
    have := hasDeriv2 u _ _ _ _ _ hd' hd (by rw [e0, e1]; exact hs i j hi hj)
    rw [e0, e1] at this
    refine this.congr_deriv ?_
    cases u <;> simp only [d2] <;> ring

theorem addAxial_zero_right (h : ∀ x, a ≠ .const x) : addAxial a (.const 0) = a := by
  cases a <;> first | exact absurd rfl (h _) | simp [addAxial]

theorem is_addAxial_zero {g : Term} {n m : Nat} {f : Nat → Nat → ℝ} (h : Is shp val g n m f) :
    Is shp val (addAxial g (.const 0)) n m f := by
  have hh := h
  rcases h with ⟨x, rfl, h2⟩ | ⟨h1, h2, h3⟩
  · show Is shp val (if x = 0 then .const 0 else addL x (.const 0)) n m f
    by_cases h0 : x = 0
    · rw [if_pos h0, ← h0]; exact hh
    · rw [if_neg h0]
      have : addL x (.const 0) = .const x := by unfold addL; rw [if_neg h0]; simp [unop, K1.fn]
      rw [this]; exact hh
  · rw [addAxial_zero_right h1.nc]; exact hh

/-- A bias without the variable. -/
theorem inv_axialL (ha : Inv shp val v k c' a gf) (hm : IsMm a) (l : Leaf) (hl : shp l = [(dims shp a).1])
    (hf : Free v (.leaf l)) : Inv shp val v k c' (.axial a (.leaf l)) gf := by
  obtain ⟨g, h1, h2⟩ := ha.grad
  obtain ⟨h1', hj'⟩ := info_free hf
  have hne : a ≠ .leaf l := by rintro rfl; exact hm
  have hj : inheritArgs a (.leaf l) (info v a).jac (info v (.leaf l)).jac = inherit1 (info v a).jac := by
    unfold inheritArgs; rw [if_neg hne, hj', inherit2_none_right]
  have ht := inherit1_not_terminal (info v a).jac
  have hu : uses v (.leaf l) = false := free_uses.1 hf
  refine ⟨⟨ha.typed, hm, l, rfl, hl⟩, ha.same, by simp [uses, ha.used], ⟨addAxial g (.const 0), ?_, is_addAxial_zero h2⟩, ?_, ?_⟩
  · rw [info]
    simp only [hj, argGrad, ht]
    rw [if_pos (by simp [ha.used])]
    simp [h1, h1']
  · rw [info]
    simp only [hj]
    rw [if_neg (by simp [hu]), inherit1_idem, ha.jac]
  · intro i j p q hi hj hp hq
    have hd := ha.deriv i j p q hi hj hp hq
    have := den_free (shp := shp) (val := val) hf p q
    simp only [den] at this ⊢
    have h3 : (fun x => den shp (setAt val v p q x) a i j + setAt val v p q x l i 0) =
        fun x => den shp (setAt val v p q x) a i j + val l i 0 := by
      funext x; rw [show setAt val v p q x l i 0 = val l i 0 from congrFun (congrFun (this x) i) 0]
    rw [h3]
    exact hd.add_const _

theorem sum_ite_pair (n m p q : Nat) (hp : p < n) (hq : q < m) (r : Nat → Nat → ℝ) :
    (∑ i ∈ range n, ∑ j ∈ range m, r i j * (if i = p ∧ j = q then 1 else 0)) = r p q := by
  rw [sum_eq_single p]
  · rw [sum_eq_single q]
    · simp
    · intro j _ hj; simp [hj]
    · intro h; exact absurd (mem_range.2 hq) h
  · intro i _ hi; simp [hi]
  · intro h; exact absurd (mem_range.2 hp) h

/-- The variable itself. -/
theorem core_var : Core shp val v (.leaf ⟨true, v⟩) (fun i j p q => if i = p ∧ j = q then 1 else 0) := by
  refine ⟨fun R r _ hR => ⟨R, rfl, id, hR.congr (fun p q hp hq => ?_)⟩, fun env on ρ _ _ R h1 h2 => ⟨R, rfl, h1, h2⟩⟩
  exact (sum_ite_pair _ _ p q hp hq r).symm

theorem inv_var (ht : Typed shp (.leaf ⟨true, v⟩)) :
    Inv shp val v (.leaf ⟨true, v⟩) (fun i j p q => if i = p ∧ j = q then 1 else 0) (.leaf ⟨true, v⟩) (fun _ _ => 1) := by
  refine ⟨ht, rfl, by simp [uses], ⟨.const 1, by simp [info], is_const 1⟩, rfl, ?_⟩
  intro i j p q hi hj hp hq
  simp only [den, setAt, true_and, one_mul]
  by_cases h : i = p ∧ j = q
  · simp only [if_pos h]; exact hasDerivAt_id _
  · simp only [if_neg h]; exact hasDerivAt_const _ _

/-- The variable as a bias. -/
theorem core_bias (ha : Typed shp a) (hl : shp ⟨true, v⟩ = [(dims shp a).1]) (hf : Free v a) :
    Core shp val v (.axial a (.leaf ⟨true, v⟩)) (fun i _ p _ => if i = p then 1 else 0) := by
  have hlist : (info v (.axial a (.leaf ⟨true, v⟩))).list = [axialJacobian] := by
    have hj := (info_free hf).2
    have hlj : (info v (.leaf ⟨true, v⟩)).jac = none := rfl
    rw [info, Info.list]
    rw [if_pos (by simp [uses]), hj, hlj]
    simp [inheritArgs, inherit2, inherit1, pushFront, uses]
  refine ⟨?_, fun env on ρ _ _ R h1 h2 => ⟨.rsum R, by rw [hlist]; rfl, by simp, by simp only [eval, h2]; rfl⟩⟩
  rw [hlist]
  intro R r hR hI
  have hR : ∀ c, R ≠ .const c := by simpa using hR
  refine ⟨.rsum R, rfl, by simp, ?_⟩
  rcases hI with ⟨c, h1, _⟩ | ⟨h1, h2, h3⟩
  · exact absurd h1 (hR c)
  · refine .inr ⟨h1, ?_, fun p q hp hq => ?_⟩
    · simp only [dims, h2, hl, leafSize]
    · simp only [hl, leafSize] at hp hq
      show (∑ j ∈ range (dims shp R).2, den shp val R p j) = _
      rw [h2]
      refine Eq.trans ?_ (sum_eq_single (M := ℝ) p ?_ ?_).symm
      · refine sum_congr rfl (fun j hj => ?_)
        rw [h3 p j hp (mem_range.1 hj)]; simp
      · intro i _ hi; simp [hi]
      · intro h; exact absurd (mem_range.2 hp) h

theorem inv_bias (ha : Typed shp a) (hm : IsMm a) (hl : shp ⟨true, v⟩ = [(dims shp a).1]) (hf : Free v a) :
    Inv shp val v (.axial a (.leaf ⟨true, v⟩)) (fun i _ p _ => if i = p then 1 else 0) (.axial a (.leaf ⟨true, v⟩)) (fun _ _ => 1) := by
  obtain ⟨hg, hj⟩ := info_free hf
  have hlj : (info v (.leaf ⟨true, v⟩)).jac = none := rfl
  refine ⟨⟨ha, hm, _, rfl, hl⟩, rfl, by simp [uses], ⟨.const 1, ?_, is_const 1⟩, rfl, ?_⟩
  · rw [info]
    simp only [hj, hlj]
    rw [if_pos (by simp [uses])]
    simp [inheritArgs, inherit2, inherit1, argGrad, isTerminal, hg, info, addAxial]
  · intro i j p q hi hj hp hq
    simp only [hl, leafSize] at hp hq
    obtain rfl : q = 0 := by omega
    simp only [den, den_free hf, setAt, true_and, one_mul]
    by_cases h : i = p
    · subst h; simp only [and_self, if_true]; exact (hasDerivAt_id _).const_add _
    · simp only [h, false_and, if_false]; exact hasDerivAt_const _ _

theorem list_pushBack (this : Term) (F : Term → Outcome Term) (j : Option Jac) : (pushBack this F j).list = listOf j ++ [F] := by
  cases j <;> rfl

/-- The term a matrix product's transfer function builds for a left factor with gradient `g`. -/
theorem mm_back_left {R b g : Term} {X Y Z : Nat} {r gf : Nat → Nat → ℝ} (hR : Typed shp R) (hRd : dims shp R = (X, Y))
    (hRv : ∀ i j, i < X → j < Y → den shp val R i j = r i j) (hb : Typed shp b) (hbd : dims shp b = (X, Z))
    (hg : Is shp val g Z Y gf) :
    Is shp val (mul (matmul R b false true) g) Z Y (fun z y => (∑ x ∈ range X, r x y * den shp val b x z) * gf z y) := by
  obtain ⟨t1, t2, t3⟩ := is_transpose (val := val) hb
  refine is_mul (.inr ⟨⟨hR, ?_, ?_⟩, ?_, ?_⟩) hg
  · simpa using t1
  · simp only [if_true, Bool.false_eq_true, if_false, t2, hRd, hbd]
  · simp only [matmul, dims, if_true, Bool.false_eq_true, if_false, t2, hRd, hbd]
  · intro z y hz hy
    simp only [matmul, den, if_true, Bool.false_eq_true, if_false, hRd]
    refine sum_congr rfl (fun x hx => ?_)
    rw [hRv x y (mem_range.1 hx) hy, t3]

theorem mm_back_right {R a g : Term} {X Y Z : Nat} {r gf : Nat → Nat → ℝ} (hR : Typed shp R) (hRd : dims shp R = (X, Y))
    (hRv : ∀ i j, i < X → j < Y → den shp val R i j = r i j) (ha : Typed shp a) (had : dims shp a = (Z, Y))
    (hg : Is shp val g X Z gf) :
    Is shp val (mul (matmul a R true false) g) X Z (fun x z => (∑ y ∈ range Y, den shp val a z y * r x y) * gf x z) := by
  obtain ⟨t1, t2, t3⟩ := is_transpose (val := val) ha
  refine is_mul (.inr ⟨⟨?_, hR, ?_⟩, ?_, ?_⟩) hg
  · simpa using t1
  · simp only [if_true, Bool.false_eq_true, if_false, t2, hRd, had]
  · simp only [matmul, dims, if_true, Bool.false_eq_true, if_false, t2, hRd, had]
  · intro x z hx hz
    simp only [matmul, den, if_true, Bool.false_eq_true, if_false, t2, had]
    refine sum_congr rfl (fun y hy => ?_)
    rw [hRv x y hx (mem_range.1 hy), t3]

theorem mul_zero_right (h : ∀ x, e ≠ .const x) : mul e (.const 0) = .const 0 := by
  rw [mul_const_right 0 h, if_pos rfl]

theorem add_zero_left (e : Term) : add (.const 0) e = e := by
  show (if (0 : ℝ) = 0 then e else _) = e
  rw [if_pos rfl]

theorem add_zero_right (h : ∀ x, e ≠ .const x) : add e (.const 0) = e := by
  rw [add_const_right 0 h, if_pos rfl]

theorem mul_typed_nc {M g : Term} {n m : Nat} {f : Nat → Nat → ℝ} (hM : Typed shp M) (hg : Is shp val g n m f) (h0 : g ≠ .const 0) (c : ℝ) :
    mul M g ≠ .const c := by
  rcases hg with ⟨x, rfl, _⟩ | ⟨hg, _, _⟩
  · have hx : x ≠ 0 := fun hx => h0 (by rw [hx])
    rw [mul_const_right x hM.nc, if_neg hx, mulR_nc x hM.nc, if_neg (Ne.symm hx)]
    by_cases h4 : 1 = x
    · rw [if_pos h4]; exact hM.nc c
    · rw [if_neg h4]
      by_cases h5 : -1 = x
      · rw [if_pos h5]; exact neg_nc hM.nc hM c
      · rw [if_neg h5]; simp
  · by_cases hne : M = g
    · subst hne
      unfold mul pow
      rw [if_pos rfl, if_neg (by norm_num), if_neg (by norm_num), unop_nc hM.nc]; simp
    · rw [mul_nc hne hM hg]; simp

theorem isZero_iff (g : Term) : isZero g ↔ g = .const 0 := by
  cases g <;> simp [isZero]

theorem info_mm_left (hu : uses v a = true) (hf : Free v b) {g : Term} (hg : (info v a).grad = .ok g) (fa fb : Bool) :
    (info v (.mm fa fb a b)).grad = .ok (cond "eq".toList eqCmp (.mm fa fb a b) (.mm fa fb a b)) ∧
    (info v (.mm fa fb a b)).list = (info v a).list ++ [mmJacobian fa fb a b (.ok g) (.ok (.const 0))] := by
  obtain ⟨hg', hj'⟩ := info_free hf
  have hne : a ≠ b := by rintro rfl; rw [free_uses] at hf; rw [hu] at hf; cases hf
  have hj : inheritArgs a b (info v a).jac (info v b).jac = inherit1 (info v a).jac := by
    unfold inheritArgs; rw [if_neg hne, hj', inherit2_none_right]
  have ht := inherit1_not_terminal (info v a).jac
  constructor
  · rw [info]
    simp only [hj, argGrad, ht]
    rw [if_pos (by simp [hu])]
    simp [hg, hg']
  · rw [info, Info.list]
    simp only [hj]
    rw [if_pos (by simp [hu])]
    show (pushBack _ _ _).list = _
    rw [list_pushBack, ← info_list, hg, hg']

theorem info_mm_right (hu : uses v b = true) (hf : Free v a) {g : Term} (hg : (info v b).grad = .ok g) (fa fb : Bool) :
    (info v (.mm fa fb a b)).grad = .ok (cond "eq".toList eqCmp (.mm fa fb a b) (.mm fa fb a b)) ∧
    (info v (.mm fa fb a b)).list = (info v b).list ++ [mmJacobian fa fb a b (.ok (.const 0)) (.ok g)] := by
  obtain ⟨hg', hj'⟩ := info_free hf
  have hne : a ≠ b := by rintro rfl; rw [free_uses] at hf; rw [hu] at hf; cases hf
  have hj : inheritArgs a b (info v a).jac (info v b).jac = inherit1 (info v b).jac := by
    unfold inheritArgs; rw [if_neg hne, hj', inherit2_none_left]
  have ht := inherit1_not_terminal (info v b).jac
  constructor
  · rw [info]
    simp only [hj, argGrad, ht]
    rw [if_pos (by simp [hu])]
    simp [hg, hg']
  · rw [info, Info.list]
    simp only [hj]
    rw [if_pos (by simp [hu])]
    show (pushBack _ _ _).list = _
    rw [list_pushBack, ← info_list, hg, hg']

theorem Inv.list (h : Inv shp val v k c' e gf) : (info v e).list = (info v k).list := by
  rw [info_list, info_list, h.jac]

/-- Undefined behaviour in the left factor of a product. -/
theorem mul_bad {env : Verif.Env ℝ} {on : Bool} {ρ : Leaf → Tensor ℝ} (hm : ∀ n, env.fits n = true)
    (hρ : ∀ l, Holds (ρ l) (shp l) (fun c => val l (c.getD 0 0) (c.getD 1 0))) {fa fb : Bool} {x y g : Term} {n m : Nat} {f : Nat → Nat → ℝ}
    (hM : eval env on ρ (.mm fa fb x y) = .ub) (hg : Is shp val g n m f) (h0 : g ≠ .const 0) :
    (∀ c, mul (.mm fa fb x y) g ≠ .const c) ∧ eval env on ρ (mul (.mm fa fb x y) g) = .ub := by
  rcases hg with ⟨c, rfl, _⟩ | ⟨ht, _, _⟩
  · have hc : c ≠ 0 := fun h => h0 (by rw [h])
    rw [mul_const_right c (by simp), if_neg hc, mulR_nc c (by simp), if_neg (Ne.symm hc)]
    split_ifs
    · exact ⟨by simp, hM⟩
    · refine ⟨by simp [neg], ?_⟩
      show (eval env on ρ (.mm fa fb x y) >>= _) = _
      rw [hM]; rfl
    · refine ⟨by simp, ?_⟩
      show (eval env on ρ (.mm fa fb x y) >>= _) = _
      rw [hM]; rfl
  · have hne : Term.mm fa fb x y ≠ g := by
      rintro rfl
      obtain ⟨t, h1, _⟩ := eval_typed env hm on ρ hρ _ ht
      rw [hM] at h1; cases h1
    have e1 : mul (.mm fa fb x y) g = .bin .mul (.mm fa fb x y) g := by
      rw [mul_nc' hne (by simp) ht.nc]
      unfold node2
      rw [grouping_typed ht]; rfl
    rw [e1]
    refine ⟨by simp, ?_⟩
    show (eval env on ρ (.mm fa fb x y) >>= _) = _
    rw [hM]; rfl

/-- The matrix product of a chain and something without the variable. -/
theorem core_mm_left (hk : Core shp val v k c') (ha : Inv shp val v k c' a gf) (hb : Typed shp b) (hf : Free v b)
    (hd : (dims shp a).1 = (dims shp b).2) (h0 : (info v a).grad ≠ .ok (.const 0)) :
    Core shp val v (.mm false false a b)
      (fun i j p q => ∑ z ∈ range (dims shp a).1, gf z j * c' z j p q * den shp val b i z) := by
  obtain ⟨g, hg, hI⟩ := ha.grad
  have hg0 : g ≠ .const 0 := fun h => h0 (by rw [hg, h])
  have hlist := (info_mm_left ha.used hf hg false false).2
  refine ⟨?_, fun env on ρ hm hρ R hR hb' => ?_⟩
  case refine_2 =>
    have hM : eval env on ρ (matmul R b false true) = .ub := by
      show (eval env on ρ R >>= _) = _
      rw [hb']; rfl
    obtain ⟨n1, n2⟩ := mul_bad hm hρ hM hI hg0
    change ∀ c, mul (matmul R b false true) g ≠ .const c at n1
    have hstep : mmJacobian false false a b (.ok g) (.ok (.const 0)) R = .ok (mul (matmul R b false true) g) := by
      unfold mmJacobian
      rw [Outcome.ok_bind, Outcome.ok_bind, if_neg (by rw [isZero_iff]; exact fun h => hg0 h.1)]
      rw [if_neg (by simp), if_neg (by simp), mul_zero_right (by simp [matmul]), add_zero_right n1]
    rw [hlist, jacobianCall_append, hstep, Outcome.ok_bind, ha.list]
    exact hk.bad env on ρ hm hρ _ n1 n2
  rw [hlist]
  intro R r hR hIR
  have hR : ∀ c, R ≠ .const c := by simpa using hR
  rcases hIR with ⟨c, h1, _⟩ | ⟨h1, h2, h3⟩
  · exact absurd h1 (hR c)
  have hM : Typed shp (matmul R b false true) := by
    obtain ⟨t1, t2, _⟩ := is_transpose (val := val) hb
    refine ⟨h1, by simpa using t1, ?_⟩
    simp [t2, h2, dims]
  have hM' : Typed shp (matmul a R true false) := by
    obtain ⟨t1, t2, _⟩ := is_transpose (val := val) ha.typed
    refine ⟨by simpa using t1, h1, ?_⟩
    simp [t2, h2, dims]
  have hroot := mm_back_left (val := val) (X := (dims shp b).1) (Y := (dims shp a).2) (Z := (dims shp a).1) h1 h2 h3 hb
    (by rw [hd]) hI
  have hstep : mmJacobian false false a b (.ok g) (.ok (.const 0)) R = .ok (mul (matmul R b false true) g) := by
    unfold mmJacobian
    rw [Outcome.ok_bind, Outcome.ok_bind, if_neg (by rw [isZero_iff]; exact fun h => hg0 h.1)]
    rw [if_neg (by simp), if_neg (by simp), mul_zero_right hM'.nc, add_zero_right (mul_typed_nc hM hI hg0)]
  rw [jacobianCall_append, hstep, Outcome.ok_bind, ha.list]
  have hs := ha.same
  obtain ⟨d, hd1, hdn, hd2⟩ := hk.call (mul (matmul R b false true) g) _ (.inr (mul_typed_nc hM hI hg0)) (by rw [← hs]; exact hroot)
  refine ⟨d, hd1, fun _ => hdn (mul_typed_nc hM hI hg0), hd2.congr (fun p q hp hq => ?_)⟩
  rw [← hs]
  show _ = ∑ i ∈ range (dims shp b).1, ∑ j ∈ range (dims shp a).2, _
  calc _ = ∑ z ∈ range (dims shp a).1, ∑ y ∈ range (dims shp a).2, ∑ x ∈ range (dims shp b).1,
        r x y * (gf z y * c' z y p q * den shp val b x z) := by
        refine sum_congr rfl (fun z _ => sum_congr rfl (fun y _ => ?_))
        rw [sum_mul, sum_mul]
        exact sum_congr rfl (fun x _ => by ring)
    _ = ∑ x ∈ range (dims shp b).1, ∑ y ∈ range (dims shp a).2, ∑ z ∈ range (dims shp a).1,
        r x y * (gf z y * c' z y p q * den shp val b x z) := by
        rw [sum_comm]
        rw [sum_comm (s := range (dims shp b).1)]
        exact sum_congr rfl (fun y _ => sum_comm)
    _ = _ := by
        refine sum_congr rfl (fun x _ => sum_congr rfl (fun y _ => ?_))
        rw [mul_sum]

/-- The gradient of a matrix product before its transfer function: all ones. -/
theorem is_ones {m : Term} (hm : Typed shp m) (hn : ∀ c, m ≠ .const c) :
    Is shp val (cond "eq".toList eqCmp m m) (dims shp m).1 (dims shp m).2 (fun _ _ => 1) := by
  have : cond "eq".toList eqCmp m m = .bin (.cond "eq".toList eqCmp) m m := by
    cases m <;> first | rfl | exact absurd rfl (hn _)
  rw [this]
  refine .inr ⟨⟨hm, .inl hm, .inl rfl⟩, dims_bin rfl, fun i j _ _ => ?_⟩
  rw [den_bin rfl]
  simp [K2.fn, ofCmp, eqCmp]

theorem inv_mm_left (ha : Inv shp val v k c' a gf) (hb : Typed shp b) (hf : Free v b) (hd : (dims shp a).1 = (dims shp b).2) :
    Inv shp val v (.mm false false a b)
      (fun i j p q => ∑ z ∈ range (dims shp a).1, gf z j * c' z j p q * den shp val b i z) (.mm false false a b) (fun _ _ => 1) := by
  obtain ⟨g, hg, hI⟩ := ha.grad
  have ht : Typed shp (.mm false false a b) := ⟨ha.typed, hb, hd⟩
  refine ⟨ht, rfl, by simp [uses, ha.used], ⟨_, (info_mm_left ha.used hf hg false false).1, is_ones ht ht.nc⟩, rfl, ?_⟩
  intro i j p q hi hj hp hq
  simp only [den, den_free hf]
  rw [one_mul]
  refine HasDerivAt.fun_sum (fun z hz => ?_)
  exact (ha.deriv z j p q (mem_range.1 hz) hj hp hq).mul_const _

theorem core_mm_right (hk : Core shp val v k c') (hb : Inv shp val v k c' b gf) (ha : Typed shp a) (hf : Free v a)
    (hd : (dims shp a).1 = (dims shp b).2) (h0 : (info v b).grad ≠ .ok (.const 0)) :
    Core shp val v (.mm false false a b)
      (fun i j p q => ∑ z ∈ range (dims shp a).1, den shp val a z j * (gf i z * c' i z p q)) := by
  obtain ⟨g, hg, hI⟩ := hb.grad
  have hg0 : g ≠ .const 0 := fun h => h0 (by rw [hg, h])
  have hlist := (info_mm_right hb.used hf hg false false).2
  refine ⟨?_, fun env on ρ hm hρ R hR hb' => ?_⟩
  case refine_2 =>
    have hM : eval env on ρ (matmul a R true false) = .ub := by
      obtain ⟨t, h1, _⟩ := eval_typed env hm on ρ hρ _ (is_transpose (val := val) ha).1
      show (eval env on ρ (transpose a) >>= fun x => eval env on ρ R >>= _) = _
      rw [h1, Outcome.ok_bind, hb']; rfl
    obtain ⟨n1, n2⟩ := mul_bad hm hρ hM hI hg0
    have hstep : mmJacobian false false a b (.ok (.const 0)) (.ok g) R = .ok (mul (matmul a R true false) g) := by
      unfold mmJacobian
      rw [Outcome.ok_bind, Outcome.ok_bind, if_neg (by rw [isZero_iff, isZero_iff]; exact fun h => hg0 h.2)]
      rw [if_neg (by simp), if_neg (by simp), mul_zero_right (by simp [matmul]), add_zero_left]
    rw [hlist, jacobianCall_append, hstep, Outcome.ok_bind, hb.list]
    exact hk.bad env on ρ hm hρ _ n1 n2
  rw [hlist]
  intro R r hR hIR
  have hR : ∀ c, R ≠ .const c := by simpa using hR
  rcases hIR with ⟨c, h1, _⟩ | ⟨h1, h2, h3⟩
  · exact absurd h1 (hR c)
  have hM : Typed shp (matmul R b false true) := by
    obtain ⟨t1, t2, _⟩ := is_transpose (val := val) hb.typed
    refine ⟨h1, by simpa using t1, ?_⟩
    simp [t2, h2, dims]
  have hM' : Typed shp (matmul a R true false) := by
    obtain ⟨t1, t2, _⟩ := is_transpose (val := val) ha
    refine ⟨by simpa using t1, h1, ?_⟩
    simp [t2, h2, dims]
  have hroot := mm_back_right (val := val) (X := (dims shp b).1) (Y := (dims shp a).2) (Z := (dims shp b).2) h1 h2 h3 ha
    (by rw [← hd]) hI
  have hstep : mmJacobian false false a b (.ok (.const 0)) (.ok g) R = .ok (mul (matmul a R true false) g) := by
    unfold mmJacobian
    rw [Outcome.ok_bind, Outcome.ok_bind, if_neg (by rw [isZero_iff, isZero_iff]; exact fun h => hg0 h.2)]
    rw [if_neg (by simp), if_neg (by simp), mul_zero_right hM.nc, add_zero_left]
  rw [jacobianCall_append, hstep, Outcome.ok_bind, hb.list]
  have hs := hb.same
  obtain ⟨d, hd1, hdn, hd2⟩ := hk.call (mul (matmul a R true false) g) _ (.inr (mul_typed_nc hM' hI hg0)) (by rw [← hs]; exact hroot)
  refine ⟨d, hd1, fun _ => hdn (mul_typed_nc hM' hI hg0), hd2.congr (fun p q hp hq => ?_)⟩
  rw [← hs]
  show _ = ∑ i ∈ range (dims shp b).1, ∑ j ∈ range (dims shp a).2, _
  calc _ = ∑ x ∈ range (dims shp b).1, ∑ z ∈ range (dims shp b).2, ∑ y ∈ range (dims shp a).2,
        r x y * (den shp val a z y * (gf x z * c' x z p q)) := by
        refine sum_congr rfl (fun x _ => sum_congr rfl (fun z _ => ?_))
        rw [sum_mul, sum_mul]
        exact sum_congr rfl (fun y _ => by ring)
    _ = ∑ x ∈ range (dims shp b).1, ∑ y ∈ range (dims shp a).2, ∑ z ∈ range (dims shp b).2,
        r x y * (den shp val a z y * (gf x z * c' x z p q)) := by
        exact sum_congr rfl (fun x _ => sum_comm)
    _ = _ := by
        rw [hd]
        refine sum_congr rfl (fun x _ => sum_congr rfl (fun y _ => ?_))
        rw [mul_sum]

theorem inv_mm_right (hb : Inv shp val v k c' b gf) (ha : Typed shp a) (hf : Free v a) (hd : (dims shp a).1 = (dims shp b).2) :
    Inv shp val v (.mm false false a b)
      (fun i j p q => ∑ z ∈ range (dims shp a).1, den shp val a z j * (gf i z * c' i z p q)) (.mm false false a b) (fun _ _ => 1) := by
  obtain ⟨g, hg, hI⟩ := hb.grad
  have ht : Typed shp (.mm false false a b) := ⟨ha, hb.typed, hd⟩
  refine ⟨ht, rfl, by simp [uses, hb.used], ⟨_, (info_mm_right hb.used hf hg false false).1, is_ones ht ht.nc⟩, rfl, ?_⟩
  intro i j p q hi hj hp hq
  simp only [den, den_free hf]
  rw [one_mul]
  refine HasDerivAt.fun_sum (fun z hz => ?_)
  exact (hb.deriv i z p q hi (by rw [← hd]; exact mem_range.1 hz) hp hq).const_mul _

/-- What `derive` returns. -/
theorem derive_of_inv (hk : Core shp val v k c') (he : Inv shp val v k c' e gf)
    (hc : (info v k).list = [] ∨ ∀ c, (info v e).grad ≠ .ok (.const c)) :
    ∃ d G, derive v e = .ok d ∧ ((∀ c, (info v e).grad ≠ .ok (.const c)) → ∀ c, d ≠ .const c) ∧ Is shp val d (leafSize (shp ⟨true, v⟩)).1 (leafSize (shp ⟨true, v⟩)).2 G ∧
      ∀ p q, p < (leafSize (shp ⟨true, v⟩)).1 → q < (leafSize (shp ⟨true, v⟩)).2 →
        HasDerivAt (fun x => ∑ i ∈ range (dims shp e).1, ∑ j ∈ range (dims shp e).2, den shp (setAt val v p q x) e i j)
          (G p q) (val ⟨true, v⟩ p q) := by
  obtain ⟨g, hg, hI⟩ := he.grad
  rw [he.same] at hI
  obtain ⟨d, h1, hn, h2⟩ := hk.call g gf (hc.imp id (fun h c hc => h c (by rw [hg, hc]))) hI
  refine ⟨d, _, ?_, fun h => hn (fun c hc => h c (by rw [hg, hc])), h2, fun p q hp hq => ?_⟩
  · unfold derive Info.derive
    rw [hg, Outcome.ok_bind, he.list, h1]
  · rw [← he.same]
    refine HasDerivAt.fun_sum (fun i hi => HasDerivAt.fun_sum (fun j hj => ?_))
    exact he.deriv i j p q (mem_range.1 hi) (mem_range.1 hj) hp hq

end Verif.Backprop
