import Verif.Lemmas.BackpropInv
import Mathlib.Analysis.SpecialFunctions.Trigonometric.DerivHyp
/-!
# C60: differentiation through matrix products
-/
namespace Verif.Props
open Spec Backprop Finset
open Expr (K1 K2 d1 d2)
open scoped Classical
set_option linter.unusedTactic false

variable {shp : Leaf → List Nat} {val : Leaf → Nat → Nat → ℝ} {v : Nat}

theorem inv_of_around {k e : Term} {c' : Four} (h : Around shp val v k e) (hk : ∃ gf, Inv shp val v k c' k gf) :
    ∃ gf, Inv shp val v k c' e gf := by
  induction h with
  | here => exact hk
  | un _ hu hs ih => obtain ⟨_, h⟩ := ih; exact ⟨_, inv_un h _ hu hs⟩
  | left _ hb hf hd hs ih => obtain ⟨_, h⟩ := ih; exact ⟨_, inv_binL h hb hf hd _ hs⟩
  | right _ hb hf hd hs ih => obtain ⟨_, h⟩ := ih; exact ⟨_, inv_binR h hb hf hd _ hs⟩
  | both _ _ hs ih1 ih2 =>
    obtain ⟨_, h1⟩ := ih1
    obtain ⟨_, h2⟩ := ih2
    exact ⟨_, inv_bin h1 h2 _ hs⟩
  | bias _ hm hl hn ih => obtain ⟨_, h⟩ := ih; exact ⟨_, inv_axialL h hm _ hl hn⟩

theorem core_of_chain {k : Term} (h : Chain shp val v (fun a => (info v a).grad = .ok (.const 0)) k) :
    ∃ c' gf, Core shp val v k c' ∧ Inv shp val v k c' k gf := by
  induction h with
  | var ht => exact ⟨_, _, core_var, inv_var ht⟩
  | bias ht hm hl hf => exact ⟨_, _, core_bias ht hl hf, inv_bias ht hm hl hf⟩
  | left _ ha hz hb hf hd ih =>
    obtain ⟨c', gf, h1, h2⟩ := ih
    obtain ⟨gf', h3⟩ := inv_of_around ha ⟨gf, h2⟩
    exact ⟨_, _, core_mm_left h1 h3 hb hf hd hz, inv_mm_left h3 hb hf hd⟩
  | right _ ha hz hb hf hd ih =>
    obtain ⟨c', gf, h1, h2⟩ := ih
    obtain ⟨gf', h3⟩ := inv_of_around ha ⟨gf, h2⟩
    exact ⟨_, _, core_mm_right h1 h3 hb hf hd hz, inv_mm_right h3 hb hf hd⟩

/-- A well-typed term evaluates to what it denotes. -/
theorem c60_eval (env : Verif.Env ℝ) (hm : ∀ n, env.fits n = true) (on : Bool) (ρ : Leaf → Tensor ℝ)
    (hρ : ∀ l, Holds (ρ l) (shp l) (fun c => val l (c.getD 0 0) (c.getD 1 0))) (e : Term) (h : Typed shp e) :
    ∃ t, eval env on ρ e = .ok t ∧ Batch t (dims shp e).1 (dims shp e).2 (den shp val e) := by
  obtain ⟨t, h1, h2, _⟩ := eval_typed env hm on ρ hρ e h
  exact ⟨t, h1, h2⟩

theorem eval_is (env : Verif.Env ℝ) (hm : ∀ n, env.fits n = true) (on : Bool) (ρ : Leaf → Tensor ℝ)
    (hρ : ∀ l, Holds (ρ l) (shp l) (fun c => val l (c.getD 0 0) (c.getD 1 0))) {d : Term} {n b : Nat} {G : Nat → Nat → ℝ}
    (h : Is shp val d n b G) : ∃ t, eval env on ρ d = .ok t ∧ Represents t n b G ∧ ((∀ c, d ≠ .const c) → Batch t n b G) := by
  rcases h with ⟨c, rfl, h⟩ | ⟨h1, h2, h3⟩
  · refine ⟨⟨some [c], [1], [1]⟩, rfl, .inr ⟨c, ⟨⟨by simp, by simp⟩, rfl, [c], rfl, rfl, ?_⟩, h⟩, fun h => absurd rfl (h c)⟩
    rintro cc ⟨hl, hc⟩
    match cc, hl with
    | [i], _ =>
      have : i = 0 := by simpa using hc 0 (by simp)
      subst this; rfl
  · obtain ⟨t, h4, h5⟩ := c60_eval env hm on ρ hρ d h1
    rw [h2] at h5
    have := batch_congr h5 h3
    exact ⟨t, h4, .inl this, fun _ => this⟩

/-- Along a chain of matrix products, `derive` builds and evaluates to the derivative of the sum of all entries of
`e` with respect to every entry of the variable. -/
theorem c60_backprop (env : Verif.Env ℝ) (hm : ∀ n, env.fits n = true) (on : Bool) (ρ : Leaf → Tensor ℝ)
    (hρ : ∀ l, Holds (ρ l) (shp l) (fun c => val l (c.getD 0 0) (c.getD 1 0))) (k e : Term)
    (hk : Chain shp val v (fun a => (info v a).grad = .ok (.const 0)) k) (he : Around shp val v k e)
    (hc : k = .leaf ⟨true, v⟩ ∨ ∀ c, (info v e).grad ≠ .ok (.const c)) :
    ∃ d t G, derive v e = .ok d ∧ eval env on ρ d = .ok t ∧
      Represents t (leafSize (shp ⟨true, v⟩)).1 (leafSize (shp ⟨true, v⟩)).2 G ∧
      ∀ p q, p < (leafSize (shp ⟨true, v⟩)).1 → q < (leafSize (shp ⟨true, v⟩)).2 →
        HasDerivAt (fun x => ∑ i ∈ range (dims shp e).1, ∑ j ∈ range (dims shp e).2, den shp (setAt val v p q x) e i j)
          (G p q) (val ⟨true, v⟩ p q) := by
  obtain ⟨c', gf, h1, h2⟩ := core_of_chain hk
  obtain ⟨gf', h3⟩ := inv_of_around he ⟨gf, h2⟩
  have hl : (info v k).list = [] ∨ ∀ c, (info v e).grad ≠ .ok (.const c) := by
    rcases hc with rfl | hc
    · exact .inl rfl
    · exact .inr hc
  obtain ⟨d, G, h4, _, h5, h6⟩ := derive_of_inv h1 h3 hl
  obtain ⟨t, h7, h8, _⟩ := eval_is env hm on ρ hρ h5
  exact ⟨d, t, G, h4, h7, h8, h6⟩

/-! ### Networks -/

def IsAxial : Term → Prop
  | .axial _ _ => True
  | _ => False

theorem tanh_eq (x : ℝ) : (Real.exp (2 * x) - 1) / (Real.exp (2 * x) + 1) = Real.tanh x := by
  rw [Real.tanh_eq_sinh_div_cosh, Real.sinh_eq, Real.cosh_eq]
  have h1 : Real.exp (2 * x) = Real.exp x * Real.exp x := by rw [← Real.exp_add]; ring_nf
  have h2 : Real.exp (-x) * Real.exp x = 1 := by rw [← Real.exp_add]; simp
  have h3 := Real.exp_pos x
  have h4 := Real.exp_pos (-x)
  have h5 : Real.exp (-x) = 1 / Real.exp x := by field_simp; exact h2
  rw [h1, h5]
  field_simp

theorem neg_axial {z : Term} (h : IsAxial z) : neg z = .un .neg z := by
  cases z <;> first | rfl | exact h.elim

theorem sigmoid_axial {z : Term} (h : IsAxial z) :
    Backprop.sigmoid z = .ok (.un (.divL 1) (.un (.addL 1) (.un .exp (.un .neg z)))) := by
  unfold Backprop.sigmoid addL
  rw [neg_axial h, if_neg one_ne_zero]
  simp [unop, divL]

theorem tanh_axial {z : Term} (h : IsAxial z) :
    Backprop.tanh z = .ok (.bin .div (.un (.subR 1) (.un .exp (.un (.mulL 2) z))) (.un (.addR 1) (.un .exp (.un (.mulL 2) z)))) := by
  have hz : ∀ c, z ≠ .const c := by rintro c rfl; exact h
  have h1 : mulL 2 z = .un (.mulL 2) z := by
    rw [mulL_nc 2 hz, if_neg (by norm_num), if_neg (by norm_num), if_neg (by norm_num)]
  have h2 : grouping z = none := by cases z <;> first | rfl | exact h.elim
  unfold Backprop.tanh
  rw [h1]
  simp [unop, subR, addR, div, node2, grouping, h2]

theorem den_act {z : Term} (hz : IsAxial z) (ht : Typed shp z) (act : ActFn) : ∃ e, act.apply z = .ok e ∧ Typed shp e ∧
    dims shp e = dims shp z ∧ (∀ val, ∀ i j, den shp val e i j = actFn act (den shp val z i j)) ∧
    (Free v z → Free v e) := by
  cases act with
  | identity => exact ⟨z, rfl, ht, rfl, fun _ _ _ => rfl, id⟩
  | sigmoid =>
    refine ⟨_, sigmoid_axial hz, ⟨⟨⟨⟨ht, by simp⟩, by simp⟩, by simp⟩, by simp⟩, rfl, fun val i j => rfl, id⟩
  | tanh =>
    refine ⟨_, tanh_axial hz, ⟨⟨⟨⟨ht, by simp⟩, by simp⟩, by simp⟩, .inl ⟨⟨⟨ht, by simp⟩, by simp⟩, by simp⟩, .inl rfl⟩,
      dims_bin rfl, fun val i j => ?_, fun h => ⟨h, h⟩⟩
    rw [den_bin (by rfl)]
    exact tanh_eq _

/-- Activations keep a local derivative that vanishes nowhere. -/
theorem inv_act {k z : Term} {c' : Four} {gf : Nat → Nat → ℝ} (hz : IsAxial z) (h : Inv shp val v k c' z gf)
    (h0 : ∀ i j, gf i j ≠ 0) (act : ActFn) :
    ∃ e gf', act.apply z = .ok e ∧ Inv shp val v k c' e gf' ∧ ∀ i j, gf' i j ≠ 0 := by
  cases act with
  | identity => exact ⟨z, gf, rfl, h, h0⟩
  | sigmoid =>
    have hp : ∀ x : ℝ, 1 + Real.exp (-x) ≠ 0 := fun x => by positivity
    have h1 := inv_un h .neg (by simp) (fun _ _ _ _ => trivial)
    have h2 := inv_un h1 .exp (by simp) (fun _ _ _ _ => trivial)
    have h3 := inv_un h2 (.addL 1) (by simp) (fun _ _ _ _ => trivial)
    have h4 := inv_un h3 (.divL 1) (by simp) (fun i j _ _ => hp (den shp val z i j))
    refine ⟨_, _, sigmoid_axial hz, h4, fun i j => ?_⟩
    have e1 : den shp val (Term.un (.addL 1) (.un .exp (.un .neg z))) i j = 1 + Real.exp (-den shp val z i j) := rfl
    have hne : d1 (.divL 1) (den shp val (Term.un (.addL 1) (.un .exp (.un .neg z))) i j) ≠ 0 := by
      rw [e1]
      exact div_ne_zero (by norm_num) (mul_ne_zero (hp _) (hp _))
    refine mul_ne_zero hne (mul_ne_zero one_ne_zero (mul_ne_zero ?_ (mul_ne_zero ?_ (h0 i j))))
    · exact (Real.exp_pos _).ne'
    · show (-1 : ℝ) ≠ 0; norm_num
  | tanh =>
    have h1 := inv_un h (.mulL 2) (by simp) (fun _ _ _ _ => trivial)
    have h2 := inv_un h1 .exp (by simp) (fun _ _ _ _ => trivial)
    have h3 := inv_un h2 (.subR 1) (by simp) (fun _ _ _ _ => trivial)
    have h4 := inv_un h2 (.addR 1) (by simp) (fun _ _ _ _ => trivial)
    have hp : ∀ x : ℝ, Real.exp x + 1 ≠ 0 := fun x => by positivity
    have h5 := inv_bin h3 h4 .div (fun i j _ _ => hp (2 * den shp val z i j))
    refine ⟨_, _, tanh_axial hz, h5, fun i j => ?_⟩
    show (1 * (Real.exp (2 * den shp val z i j) * (2 * gf i j)) * (Real.exp (2 * den shp val z i j) + 1) -
      1 * (Real.exp (2 * den shp val z i j) * (2 * gf i j)) * (Real.exp (2 * den shp val z i j) - 1)) /
      ((Real.exp (2 * den shp val z i j) + 1) * (Real.exp (2 * den shp val z i j) + 1)) ≠ 0
    refine div_ne_zero ?_ (mul_ne_zero (hp _) (hp _))
    have : (1 * (Real.exp (2 * den shp val z i j) * (2 * gf i j)) * (Real.exp (2 * den shp val z i j) + 1) -
      1 * (Real.exp (2 * den shp val z i j) * (2 * gf i j)) * (Real.exp (2 * den shp val z i j) - 1)) =
      4 * Real.exp (2 * den shp val z i j) * gf i j := by ring
    rw [this]
    exact mul_ne_zero (mul_ne_zero (by norm_num) (Real.exp_pos _).ne') (h0 i j)

/-- The affine part of a layer. -/
def affine (h : Term) (l : NetLayer) : Term := .axial (.mm false false h (.leaf ⟨true, l.w⟩)) (.leaf ⟨true, l.bias⟩)

theorem propUp_cons (l : NetLayer) (ls : List NetLayer) (h : Term) :
    propUp (l :: ls) h = l.act.apply (affine h l) >>= fun h => propUp ls h := rfl

theorem affine_typed {h : Term} {n B : Nat} {l : NetLayer} {ls : List NetLayer} (ht : Typed shp h) (hd : dims shp h = (n, B))
    (hn : NetShapes shp n (l :: ls)) : Typed shp (.mm false false h (.leaf ⟨true, l.w⟩)) ∧ Typed shp (affine h l) ∧
      dims shp (affine h l) = (l.out, B) := by
  obtain ⟨h1, h2, h3, h4⟩ := hn
  have hp := (typed_pos ht).1
  rw [hd] at hp
  have hm : Typed shp (.mm false false h (.leaf ⟨true, l.w⟩)) := by
    refine ⟨ht, ⟨l.out, n, h1, hp, .inl h2⟩, ?_⟩
    simp only [dims, h2, leafSize, hd]
  refine ⟨hm, ⟨hm, trivial, _, rfl, ?_⟩, ?_⟩
  · simp only [dims, h2, leafSize]; exact h3
  · simp only [affine, dims, h2, leafSize, hd]

theorem propUp_den (ls : List NetLayer) : ∀ (h : Term) (n B : Nat), Typed shp h → dims shp h = (n, B) → NetShapes shp n ls →
    ∃ e, propUp ls h = .ok e ∧ Typed shp e ∧ dims shp e = (netOut n ls, B) ∧
      ∀ val, ∀ i j, den shp val e i j = feed (netSpec val ls) n (fun z => den shp val h z j) i := by
  induction ls with
  | nil => intro h n B ht hd _; exact ⟨h, rfl, ht, hd, fun _ _ _ => rfl⟩
  | cons l ls ih =>
    intro h n B ht hd hn
    obtain ⟨_, t2, t3⟩ := affine_typed ht hd hn
    obtain ⟨e, a1, a2, a3, a4, _⟩ := den_act (v := 0) (z := affine h l) trivial t2 l.act
    obtain ⟨r, b1, b2, b3, b4⟩ := ih e l.out B a2 (a3.trans t3) hn.2.2.2
    refine ⟨r, by rw [propUp_cons, a1, Outcome.ok_bind, b1], b2, b3, fun val i j => ?_⟩
    rw [b4]
    show _ = feed (netSpec val ls) l.out _ i
    congr 1
    funext z
    rw [a4]
    show actFn l.act ((∑ z' ∈ range (dims shp h).1, _) + _) = actFn l.act ((∑ z' ∈ range n, _) + _)
    rw [hd]
    rfl

theorem netOut_width (val : Leaf → Nat → Nat → ℝ) (ls : List NetLayer) : ∀ n, width (netSpec val ls) n = netOut n ls := by
  induction ls with
  | nil => intro n; rfl
  | cons l ls ih => intro n; exact ih l.out

theorem grad_ne_zero {k e : Term} {c' : Four} {gf : Nat → Nat → ℝ} (h : Inv shp val v k c' e gf) (h0 : ∀ i j, gf i j ≠ 0) :
    (info v e).grad ≠ .ok (.const 0) := by
  obtain ⟨g, h1, h2⟩ := h.grad
  intro hg
  rw [h1] at hg
  cases hg
  obtain ⟨p1, p2⟩ := typed_pos h.typed
  rcases h2 with ⟨c, hc, hf⟩ | ⟨ht, _⟩
  · cases hc; exact h0 0 0 (hf 0 0 p1 p2)
  · exact ht

/-- Layers after the one with the variable. -/
theorem propUp_after (ls : List NetLayer) : ∀ (h : Term) (n B : Nat) (k : Term) (c' : Four) (gf : Nat → Nat → ℝ),
    Core shp val v k c' → Inv shp val v k c' h gf → (∀ i j, gf i j ≠ 0) → dims shp h = (n, B) → NetShapes shp n ls →
    v ∉ params ls →
    ∃ e k' c'' gf', propUp ls h = .ok e ∧ Core shp val v k' c'' ∧ Inv shp val v k' c'' e gf' ∧ ∀ i j, gf' i j ≠ 0 := by
  induction ls with
  | nil => intro h n B k c' gf hc hi h0 _ _ _; exact ⟨h, k, c', gf, rfl, hc, hi, h0⟩
  | cons l ls ih =>
    intro h n B k c' gf hc hi h0 hd hn hv
    obtain ⟨t1, t2, t3⟩ := affine_typed hi.typed hd hn
    have hv' : v ≠ l.w ∧ v ≠ l.bias ∧ v ∉ params ls := by
      simp only [params, List.flatMap_cons, List.mem_append, List.mem_cons, List.not_mem_nil, or_false, not_or] at hv
      exact ⟨hv.1.1, hv.1.2, hv.2⟩
    have fw : Free v (.leaf ⟨true, l.w⟩) := by
      show (⟨true, l.w⟩ : Leaf) ≠ ⟨true, v⟩
      intro h; exact hv'.1 (by injection h with _ h; exact h.symm)
    have fb : Free v (.leaf ⟨true, l.bias⟩) := by
      show (⟨true, l.bias⟩ : Leaf) ≠ ⟨true, v⟩
      intro h; exact hv'.2.1 (by injection h with _ h; exact h.symm)
    have c2 := core_mm_left hc hi t1.2.1 fw t1.2.2 (grad_ne_zero hi h0)
    have i2 := inv_mm_left hi t1.2.1 fw t1.2.2
    have i3 := inv_axialL i2 trivial ⟨true, l.bias⟩ (by simp only [dims, hn.2.1, leafSize]; exact hn.2.2.1) fb
    obtain ⟨e, gf', a1, a2, a3⟩ := inv_act (z := affine h l) trivial i3 (fun _ _ => one_ne_zero) l.act
    have hde : dims shp e = (l.out, B) := by
      obtain ⟨e', b1, _, b3, _⟩ := den_act (v := 0) (z := affine h l) trivial t2 l.act
      rw [a1] at b1
      cases b1
      rw [b3, t3]
    obtain ⟨r, k', c'', gf'', b1, b2, b3, b4⟩ := ih e l.out B _ _ gf' c2 a2 a3 hde hn.2.2.2 hv'.2.2
    exact ⟨r, k', c'', gf'', by rw [propUp_cons, a1, Outcome.ok_bind, b1], b2, b3, b4⟩

/-- A network with the variable among its parameters. -/
theorem propUp_inv (ls : List NetLayer) : ∀ (h : Term) (n B : Nat), Typed shp h → Free v h → dims shp h = (n, B) →
    NetShapes shp n ls → (params ls).Nodup → v ∈ params ls →
    ∃ e k c' gf, propUp ls h = .ok e ∧ Core shp val v k c' ∧ Inv shp val v k c' e gf ∧ ∀ i j, gf i j ≠ 0 := by
  induction ls with
  | nil => intro h n B _ _ _ _ _ hv; simp [params] at hv
  | cons l ls ih =>
    intro h n B ht hf hd hn hnd hv
    obtain ⟨t1, t2, t3⟩ := affine_typed ht hd hn
    have hnd' : (l.w ≠ l.bias ∧ l.w ∉ params ls) ∧ l.bias ∉ params ls ∧ (params ls).Nodup := by
      have : params (l :: ls) = l.w :: l.bias :: params ls := by simp [params]
      rw [this] at hnd
      simpa using hnd
    have hv' : v = l.w ∨ v = l.bias ∨ v ∈ params ls := by
      have : params (l :: ls) = l.w :: l.bias :: params ls := by simp [params]
      rw [this] at hv
      simpa using hv
    have dimE : ∀ e, l.act.apply (affine h l) = .ok e → dims shp e = (l.out, B) := by
      intro e a1
      obtain ⟨e', b1, _, b3, _⟩ := den_act (v := 0) (z := affine h l) trivial t2 l.act
      rw [a1] at b1
      cases b1
      rw [b3, t3]
    rcases hv' with rfl | rfl | hv'
    · have fb : Free l.w (.leaf ⟨true, l.bias⟩) := by
        show (⟨true, l.bias⟩ : Leaf) ≠ ⟨true, l.w⟩
        intro h; exact hnd'.1.1 (by injection h with _ h; exact h.symm)
      have tv : Typed shp (.leaf ⟨true, l.w⟩) := t1.2.1
      have i1 := inv_var (val := val) tv
      have c2 := core_mm_right core_var i1 ht hf t1.2.2 (grad_ne_zero i1 (fun _ _ => one_ne_zero))
      have i2 := inv_mm_right i1 ht hf t1.2.2
      have i3 := inv_axialL i2 trivial ⟨true, l.bias⟩ (by simp only [dims, hn.2.1, leafSize]; exact hn.2.2.1) fb
      obtain ⟨e, gf', a1, a2, a3⟩ := inv_act (z := affine h l) trivial i3 (fun _ _ => one_ne_zero) l.act
      obtain ⟨r, k', c'', gf'', b1, b2, b3, b4⟩ := propUp_after ls e l.out B _ _ gf' c2 a2 a3 (dimE e a1) hn.2.2.2 hnd'.1.2
      exact ⟨r, k', c'', gf'', by rw [propUp_cons, a1, Outcome.ok_bind, b1], b2, b3, b4⟩
    · have fm : Free l.bias (.mm false false h (.leaf ⟨true, l.w⟩)) := by
        refine ⟨hf, ?_⟩
        show (⟨true, l.w⟩ : Leaf) ≠ ⟨true, l.bias⟩
        intro h; exact hnd'.1.1 (by injection h)
      have hl : shp ⟨true, l.bias⟩ = [(dims shp (.mm false false h (.leaf ⟨true, l.w⟩))).1] := by
        simp only [dims, hn.2.1, leafSize]; exact hn.2.2.1
      have c2 := core_bias (val := val) t1 hl fm
      have i3 := inv_bias (val := val) t1 trivial hl fm
      obtain ⟨e, gf', a1, a2, a3⟩ := inv_act (z := affine h l) trivial i3 (fun _ _ => one_ne_zero) l.act
      obtain ⟨r, k', c'', gf'', b1, b2, b3, b4⟩ := propUp_after ls e l.out B _ _ gf' c2 a2 a3 (dimE e a1) hn.2.2.2 hnd'.2.1
      exact ⟨r, k', c'', gf'', by rw [propUp_cons, a1, Outcome.ok_bind, b1], b2, b3, b4⟩
    · have hnw : v ≠ l.w := fun h => hnd'.1.2 (h ▸ hv')
      have hnb : v ≠ l.bias := fun h => hnd'.2.1 (h ▸ hv')
      have fz : Free v (affine h l) := by
        refine ⟨⟨hf, ?_⟩, ?_⟩
        · show (⟨true, l.w⟩ : Leaf) ≠ ⟨true, v⟩
          intro h; exact hnw (by injection h with _ h; exact h.symm)
        · show (⟨true, l.bias⟩ : Leaf) ≠ ⟨true, v⟩
          intro h; exact hnb (by injection h with _ h; exact h.symm)
      obtain ⟨e, a1, a2, a3, _, a5⟩ := den_act (v := v) (z := affine h l) trivial t2 l.act
      obtain ⟨r, k', c'', gf'', b1, b2, b3, b4⟩ := ih e l.out B a2 (a5 fz) (dimE e a1) hn.2.2.2 hnd'.2.2 hv'
      exact ⟨r, k', c'', gf'', by rw [propUp_cons, a1, Outcome.ok_bind, b1], b2, b3, b4⟩

/-- The node `derive` builds from the error node, and what it denotes. -/
theorem mlp_gradient (ls : List NetLayer) (x y n B : Nat) (hx : shp ⟨false, x⟩ = [n, B] ∨ (B = 1 ∧ shp ⟨false, x⟩ = [n])) (hn : 0 < n) (hB : 0 < B)
    (hy : shp ⟨false, y⟩ = [netOut n ls, B] ∨ (B = 1 ∧ shp ⟨false, y⟩ = [netOut n ls]))
    (hs : NetShapes shp n ls) (hd : (params ls).Nodup) (hv : v ∈ params ls) :
    ∃ e d G, gdError ls (.leaf ⟨false, x⟩) (.leaf ⟨false, y⟩) = .ok e ∧ derive v e = .ok d ∧ (∀ c, d ≠ .const c) ∧
      Is shp val d (leafSize (shp ⟨true, v⟩)).1 (leafSize (shp ⟨true, v⟩)).2 G ∧ uses v e = true ∧
      ∀ p q, p < (leafSize (shp ⟨true, v⟩)).1 → q < (leafSize (shp ⟨true, v⟩)).2 →
        HasDerivAt (fun s => sqError (setAt val v p q s) ls n B ⟨false, x⟩ ⟨false, y⟩) (G p q) (val ⟨true, v⟩ p q) := by
  have tx : Typed shp (.leaf ⟨false, x⟩) := ⟨n, B, hn, hB, hx⟩
  have dx : dims shp (.leaf ⟨false, x⟩) = (n, B) := by
    rcases hx with h | ⟨rfl, h⟩ <;> simp only [dims, h, leafSize]
  have fx : ∀ z, Free v (.leaf ⟨false, z⟩) := fun z h => by injection h with h _; cases h
  obtain ⟨out, p1, p2, p3, p4⟩ := propUp_den (shp := shp) ls (.leaf ⟨false, x⟩) n B tx dx hs
  obtain ⟨out', k, c', gf, q1, q2, q3, q4⟩ := propUp_inv (val := val) ls (.leaf ⟨false, x⟩) n B tx (fx x) dx hs hd hv
  rw [p1] at q1
  cases q1
  have hpos := typed_pos p2
  rw [p3] at hpos
  have ty : Typed shp (.leaf ⟨false, y⟩) := ⟨netOut n ls, B, hpos.1, hB, hy⟩
  have dy : dims shp (.leaf ⟨false, y⟩) = (netOut n ls, B) := by
    rcases hy with h | ⟨rfl, h⟩ <;> simp only [dims, h, leafSize]
  have hne : Term.leaf ⟨false, y⟩ ≠ out := by
    rintro rfl
    have h1 := free_uses.1 (fx y)
    rw [q3.used] at h1
    cases h1
  have hsub : sub (.leaf ⟨false, y⟩) out = .bin .sub (.leaf ⟨false, y⟩) out := by
    rw [← node2_typed (k := .sub) ty p2]
    unfold sub; rw [if_neg hne]
    revert p2
    cases out <;> first | (intro _; rfl) | (intro p2; exact p2.elim)
  have herr : gdError ls (.leaf ⟨false, x⟩) (.leaf ⟨false, y⟩) = .ok (.un (.pow 2) (.bin .sub (.leaf ⟨false, y⟩) out)) := by
    unfold gdError
    rw [p1, Outcome.ok_bind, hsub]
    unfold mul pow
    rw [if_pos rfl, if_neg (by norm_num), if_neg (by norm_num)]
    rfl
  have i1 := inv_binR q3 ty (fx y) (dy.trans p3.symm) .sub (fun _ _ _ _ => trivial)
  have i2 := inv_un i1 (.pow 2) (by simp) (fun i j _ _ => .inr (.inr ⟨2, by norm_num⟩))
  have n1 : ∀ i j, d2 K2.sub (den shp val (.leaf ⟨false, y⟩) i j) (den shp val out i j) 0 (gf i j) ≠ 0 := by
    intro i j
    show 0 - gf i j ≠ 0
    rw [zero_sub]; exact neg_ne_zero.2 (q4 i j)
  have hgrad : ∀ c, (info v (.un (.pow 2) (.bin .sub (.leaf ⟨false, y⟩) out))).grad ≠ .ok (.const c) := by
    intro c
    obtain ⟨g, hg1, hg2⟩ := i1.grad
    have e1 : (info v (.un (.pow 2) (.bin .sub (.leaf ⟨false, y⟩) out))).grad =
        .ok (mul (mulL 2 g) (pow (.bin .sub (.leaf ⟨false, y⟩) out) (2 - 1))) := by
      rw [info]
      simp only [i1.used, if_true]
      rw [hg1, Outcome.ok_bind]
      rfl
    have e2 : pow (.bin .sub (.leaf ⟨false, y⟩) out) (2 - 1) = .bin .sub (.leaf ⟨false, y⟩) out := by
      unfold pow; rw [if_neg (by norm_num), if_pos (by norm_num)]
    rw [e1, e2]
    have hI := is_mulL 2 hg2
    have hz : mulL 2 g ≠ .const 0 := by
      intro hz
      rw [hz] at hI
      obtain ⟨r1, r2⟩ := typed_pos i1.typed
      rcases hI with ⟨c, hc, hf⟩ | ⟨ht, _⟩
      · cases hc
        exact mul_ne_zero two_ne_zero (n1 0 0) (hf 0 0 r1 r2)
      · exact ht
    have := mul_not_const (shp := shp) (e := .bin .sub (.leaf ⟨false, y⟩) out) hz
      (hI.imp (fun ⟨c, h, _⟩ => ⟨c, h⟩) (fun h => h.1)) i1.typed c
    intro h
    injection h with h
    exact this h
  obtain ⟨d, G, h4, h4n, h5, h6⟩ := derive_of_inv q2 i2 (.inr hgrad)
  refine ⟨_, d, G, herr, h4, h4n hgrad, h5, i2.used, fun p q hp hq => ?_⟩
  have h9 := h6 p q hp hq
  have hdims : dims shp (.un (.pow 2) (.bin .sub (.leaf ⟨false, y⟩) out)) = (netOut n ls, B) :=
    (dims_bin (k := .sub) (dy.trans p3.symm)).trans dy
  rw [hdims] at h9
  refine h9.congr_of_eventuallyEq (Filter.Eventually.of_forall fun s => ?_)
  unfold sqError
  beta_reduce
  rw [netOut_width]
  refine sum_congr rfl (fun i _ => sum_congr rfl (fun j _ => ?_))
  show _ = K1.fn (.pow 2) (den shp (setAt val v p q s) (.bin .sub (.leaf ⟨false, y⟩) out) i j)
  rw [den_bin (dy.trans p3.symm), p4]
  simp only [K1.fn, K2.fn, den]
  rw [Real.rpow_two]

/-- Backpropagation in a feed-forward network of any depth: for every weight matrix and bias vector, the node `derive`
builds from the squared-error node of `gd_net` evaluates to the gradient of the squared error, summed over the outputs
and the batch, in the shape of the parameter. -/
theorem c60_mlp (env : Verif.Env ℝ) (hm : ∀ n, env.fits n = true) (on : Bool) (ρ : Leaf → Tensor ℝ)
    (hρ : ∀ l, Holds (ρ l) (shp l) (fun c => val l (c.getD 0 0) (c.getD 1 0)))
    (ls : List NetLayer) (x y n B : Nat) (hx : shp ⟨false, x⟩ = [n, B] ∨ (B = 1 ∧ shp ⟨false, x⟩ = [n])) (hn : 0 < n) (hB : 0 < B)
    (hy : shp ⟨false, y⟩ = [netOut n ls, B] ∨ (B = 1 ∧ shp ⟨false, y⟩ = [netOut n ls]))
    (hs : NetShapes shp n ls) (hd : (params ls).Nodup) (hv : v ∈ params ls) :
    ∃ e d t G, gdError ls (.leaf ⟨false, x⟩) (.leaf ⟨false, y⟩) = .ok e ∧ derive v e = .ok d ∧ eval env on ρ d = .ok t ∧
      Batch t (leafSize (shp ⟨true, v⟩)).1 (leafSize (shp ⟨true, v⟩)).2 G ∧
      ∀ p q, p < (leafSize (shp ⟨true, v⟩)).1 → q < (leafSize (shp ⟨true, v⟩)).2 →
        HasDerivAt (fun s => sqError (setAt val v p q s) ls n B ⟨false, x⟩ ⟨false, y⟩) (G p q) (val ⟨true, v⟩ p q) := by
  obtain ⟨e, d, G, h1, h4, h4n, h5, _, h6⟩ := mlp_gradient (val := val) ls x y n B hx hn hB hy hs hd hv
  obtain ⟨t, h7, _, h8⟩ := eval_is env hm on ρ hρ h5
  exact ⟨e, d, t, G, h1, h4, h7, h8 h4n, h6⟩

/-- Leaves for the examples. -/
theorem full_tensor (s : List Nat) (hs : Full s) (f : List Nat → ℝ) : ∃ t, Holds t s f := by
  refine ⟨⟨some ((List.range (vol s)).map fun i => f (coords s i)), s, s⟩, hs, rfl, _, rfl, by simp, fun c hc => ?_⟩
  have hlt := Shape.flat_lt hc
  simp [hlt]
  rw [Shape.coords_flat hc]

/-- Two hidden layers, batch of five; every hypothesis of `c60_mlp` can be met. -/
example : ∃ (shp : Leaf → List Nat) (ρ : Leaf → Tensor ℝ) (val : Leaf → Nat → Nat → ℝ) (ls : List NetLayer),
    (∀ l, Holds (ρ l) (shp l) (fun c => val l (c.getD 0 0) (c.getD 1 0))) ∧ ls.length = 3 ∧
    shp ⟨false, 0⟩ = [4, 5] ∧ shp ⟨false, 1⟩ = [netOut 4 ls, 5] ∧ NetShapes shp 4 ls ∧ (params ls).Nodup ∧ 2 ∈ params ls := by
  let ls : List NetLayer := [⟨0, 1, 3, .sigmoid⟩, ⟨2, 3, 2, .tanh⟩, ⟨4, 5, 1, .identity⟩]
  let shp : Leaf → List Nat := fun l =>
    if l = ⟨false, 0⟩ then [4, 5] else if l = ⟨false, 1⟩ then [1, 5] else if l = ⟨true, 0⟩ then [3, 4]
    else if l = ⟨true, 1⟩ then [3] else if l = ⟨true, 2⟩ then [2, 3] else if l = ⟨true, 3⟩ then [2]
    else if l = ⟨true, 4⟩ then [1, 2] else [1]
  have hs : ∀ l, Full (shp l) := by
    intro l
    simp only [shp]
    split_ifs <;> exact ⟨by simp, by simp⟩
  choose ρ hρ using fun l => full_tensor (shp l) (hs l) (fun c => (c.getD 0 0 : ℝ) + 2 * c.getD 1 0)
  exact ⟨shp, ρ, fun _ i j => (i : ℝ) + 2 * j, ls, hρ, rfl, rfl, rfl, ⟨by decide, rfl, rfl, by decide, rfl, rfl, by decide, rfl, rfl, trivial⟩,
    by decide, by decide⟩

/-- A chain that is no network: `sin (x · W) * y`, the variable `W`. -/
example : ∃ (shp : Leaf → List Nat) (k e : Term), Chain shp (fun _ _ _ => 1) 0 (fun a => (info 0 a).grad = .ok (.const 0)) k ∧
    Around shp (fun _ _ _ => 1) 0 k e ∧ (∀ c, (info 0 e).grad ≠ .ok (.const c)) ∧ dims shp e = (2, 3) := by
  let shp : Leaf → List Nat := fun l => if l = ⟨true, 0⟩ then [2, 4] else if l = ⟨false, 0⟩ then [4, 3] else [2, 3]
  have tw : Typed shp (.leaf ⟨true, 0⟩) := ⟨2, 4, by decide, by decide, .inl rfl⟩
  have tx : Typed shp (.leaf ⟨false, 0⟩) := ⟨4, 3, by decide, by decide, .inl rfl⟩
  have ty : Typed shp (.leaf ⟨false, 1⟩) := ⟨2, 3, by decide, by decide, .inl rfl⟩
  refine ⟨shp, .mm false false (.leaf ⟨false, 0⟩) (.leaf ⟨true, 0⟩),
    .bin .mul (.un .sin (.mm false false (.leaf ⟨false, 0⟩) (.leaf ⟨true, 0⟩))) (.leaf ⟨false, 1⟩), ?_, ?_, ?_, rfl⟩
  · refine .right (k := .leaf ⟨true, 0⟩) (.var tw) .here ?_ tx (by simp [Free]) rfl
    simp [info]
  · exact .left (.un .here (by simp) (fun _ _ _ _ => trivial)) ty (by simp [Free]) rfl (fun _ _ _ _ => trivial)
  · intro c h
    simp [info, uses, inheritArgs, inherit2, inherit1, inherit, argGrad, isTerminal, pushBack, ginit1, ginit2, Backprop.cond, mul, unop, add, pow,
      mulR, mulL, node2, grouping] at h

/-- The gradient of a bias is not summed over the batch when the affine node itself is differentiated: the result is the
single number one, where the derivative of the sum of the entries is the size of the batch. -/
theorem c60_affine_bias (env : Verif.Env ℝ) (hm : ∀ n, env.fits n = true) (on : Bool) (ρ : Leaf → Tensor ℝ) (a : Term) (p : Nat)
    (ha : Typed shp a) (hM : IsMm a) (hl : shp ⟨true, v⟩ = [(dims shp a).1]) (hf : Free v a) (hp : p < (dims shp a).1) :
    ∃ d t, derive v (.axial a (.leaf ⟨true, v⟩)) = .ok d ∧ eval env on ρ d = .ok t ∧ Holds t [1] (fun _ => 1) ∧
      HasDerivAt (fun x => ∑ i ∈ range (dims shp a).1, ∑ j ∈ range (dims shp a).2,
        den shp (setAt val v p 0 x) (.axial a (.leaf ⟨true, v⟩)) i j) ((dims shp a).2 : ℝ) (val ⟨true, v⟩ p 0) := by
  have hI := inv_bias (val := val) ha hM hl hf
  have hone : Holds (⟨some [1], [1], [1]⟩ : Tensor ℝ) [1] (fun _ => 1) := by
    refine ⟨⟨by simp, by simp⟩, rfl, [1], rfl, rfl, ?_⟩
    rintro cc ⟨hl, hc⟩
    match cc, hl with
    | [i], _ =>
      have : i = 0 := by simpa using hc 0 (by simp)
      subst this; rfl
  obtain ⟨t, h1, h2⟩ := c19_beyond env (· + ·) (⟨some [1], [1], [1]⟩ : Tensor ℝ) [1] (fun _ => 1) 1 hone (by simp) (hm _)
  have hd : derive v (.axial a (.leaf ⟨true, v⟩)) = .ok (.rsum (.const 1)) := by
    obtain ⟨hg, hj⟩ := info_free hf
    have hlj : (info v (.leaf ⟨true, v⟩)).jac = none := rfl
    unfold derive Info.derive
    rw [info, Info.list]
    simp only [hj, hlj]
    rw [if_pos (by simp [uses]), if_pos (by simp [uses])]
    simp [inheritArgs, inherit2, inherit1, argGrad, isTerminal, hg, info, addAxial, pushFront, jacobianCall, axialJacobian]
  refine ⟨_, t, hd, h1, h2, ?_⟩
  have hsum : ∀ i ∈ range (dims shp a).1, ∀ j ∈ range (dims shp a).2,
      HasDerivAt (fun x => den shp (setAt val v p 0 x) (.axial a (.leaf ⟨true, v⟩)) i j) (1 * (if i = p then 1 else 0)) (val ⟨true, v⟩ p 0) :=
    fun i hi j hj => hI.deriv i j p 0 (mem_range.1 hi) (mem_range.1 hj) (by simpa [hl, leafSize] using hp) (by simp [hl, leafSize])
  have := HasDerivAt.fun_sum (fun i hi => HasDerivAt.fun_sum (fun j hj => hsum i hi j hj))
  refine this.congr_deriv ?_
  rw [sum_eq_single p]
  · simp
  · intro i _ hi; simp [hi]
  · intro h; exact absurd (mem_range.2 hp) h

/-- Every leaf is a 1×1 matrix. -/
def ones : Leaf → List Nat := fun _ => [1, 1]

theorem typed_ones (l : Leaf) : Typed ones (.leaf l) := ⟨1, 1, by decide, by decide, .inl rfl⟩

/-- A residual connection `h + h · W2` over `h = x · W1`: the two branches start at the same product, so only the
transfer functions of the first are kept, and the gradient for `W1` lacks the factor `W2`. -/
theorem c60_residual (env : Verif.Env ℝ) (hm : ∀ n, env.fits n = true) (on : Bool) (ρ : Leaf → Tensor ℝ)
    (hρ : ∀ l, Holds (ρ l) [1, 1] (fun c => val l (c.getD 0 0) (c.getD 1 0))) (x w1 w2 : Term)
    (hx : x = .leaf ⟨false, 0⟩) (h1 : w1 = .leaf ⟨true, 1⟩) (h2 : w2 = .leaf ⟨true, 2⟩) :
    ∃ d t, derive 1 (add (matmul x w1 false false) (matmul (matmul x w1 false false) w2 false false)) = .ok d ∧
      eval env on ρ d = .ok t ∧ Batch t 1 1 (fun _ _ => 2 * val ⟨false, 0⟩ 0 0) ∧
      HasDerivAt (fun s => den ones (setAt val 1 0 0 s) (add (matmul x w1 false false) (matmul (matmul x w1 false false) w2 false false)) 0 0)
        (val ⟨false, 0⟩ 0 0 + val ⟨false, 0⟩ 0 0 * val ⟨true, 2⟩ 0 0) (val ⟨true, 1⟩ 0 0) := by
  subst hx h1 h2
  have hadd : add (matmul (.leaf ⟨false, 0⟩) (.leaf ⟨true, 1⟩) false false) (matmul (matmul (.leaf ⟨false, 0⟩) (.leaf ⟨true, 1⟩) false false)
      (.leaf ⟨true, 2⟩) false false) = .bin .add (.mm false false (.leaf ⟨false, 0⟩) (.leaf ⟨true, 1⟩))
        (.mm false false (.mm false false (.leaf ⟨false, 0⟩) (.leaf ⟨true, 1⟩)) (.leaf ⟨true, 2⟩)) := rfl
  rw [hadd]
  let H : Term := .mm false false (.leaf ⟨false, 0⟩) (.leaf ⟨true, 1⟩)
  let M : Term := .mm false false H (.leaf ⟨true, 2⟩)
  let q : Term → Term := fun m => .bin (.cond "eq".toList eqCmp) m m
  let d : Term := .mm true false (.tr (.leaf ⟨false, 0⟩)) (.bin .add (q H) (q M))
  have tH : Typed ones H := ⟨typed_ones _, typed_ones _, rfl⟩
  have tM : Typed ones M := ⟨tH, typed_ones _, rfl⟩
  have td : Typed ones d := ⟨typed_ones _, ⟨⟨tH, .inl tH, .inl rfl⟩, .inl ⟨tM, .inl tM, .inl rfl⟩, .inl rfl⟩, rfl⟩
  obtain ⟨t, e1, e2⟩ := c60_eval (shp := ones) (val := val) env hm on ρ hρ d td
  refine ⟨d, t, ?_, e1, ?_, ?_⟩
  · have hne : H ≠ M := by simp [H, M]
    have n1 : Term.leaf ⟨false, 0⟩ ≠ .leaf ⟨true, 1⟩ := by simp
    have n2 : H ≠ .leaf ⟨true, 2⟩ := by simp [H]
    show derive 1 (.bin .add H M) = _
    simp [derive, Info.derive, Info.list, info, H, M, uses, inheritArgs, inherit2, inherit1, inherit, argGrad, isTerminal, pushBack, ginit2,
      Backprop.cond, add, jacobianCall, mmJacobian, isZero, matmul, transpose, mul, mulR, d, q, node2, grouping]
  · have hd : dims ones d = (1, 1) := rfl
    rw [hd] at e2
    refine batch_congr e2 (fun i j hi hj => ?_)
    obtain rfl : i = 0 := by omega
    obtain rfl : j = 0 := by omega
    simp [d, q, den, dims, pos, meet, ones, leafSize, K2.fn, Expr.ofCmp, eqCmp, H, M]
    ring
  · simp only [den, K2.fn, dims, pos, meet, ones, leafSize, setAt, sum_range_one, if_true]
    simp only [and_self, if_true, Leaf.mk.injEq, Bool.false_eq_true, false_and, if_false]
    have : ((2 : Nat) = 1) = False := by simp
    simp only [this, and_false, false_and, if_false]
    have hid := hasDerivAt_id (val ⟨true, 1⟩ 0 0)
    exact ((hid.const_mul (val ⟨false, 0⟩ 0 0)).add ((hid.const_mul (val ⟨false, 0⟩ 0 0)).mul_const (val ⟨true, 2⟩ 0 0))).congr_deriv (by ring)

/-- A sum of three products with one variable: the first sum notices that its two branches differ, and applies their
transfer functions itself; the second does not see that, and applies the function of the third product to the
whole.  The gradient of `(a · w + b · w) + c · w` is `c · (a + b + 1)` instead of `a + b + c`. -/
theorem c60_three_products (env : Verif.Env ℝ) (hm : ∀ n, env.fits n = true) (on : Bool) (ρ : Leaf → Tensor ℝ)
    (hρ : ∀ l, Holds (ρ l) [1, 1] (fun c => val l (c.getD 0 0) (c.getD 1 0))) (a b c w : Term)
    (ha : a = .leaf ⟨false, 0⟩) (hb : b = .leaf ⟨false, 2⟩) (hc : c = .leaf ⟨false, 3⟩) (hw : w = .leaf ⟨true, 1⟩) :
    ∃ d t, derive 1 (add (add (matmul a w false false) (matmul b w false false)) (matmul c w false false)) = .ok d ∧
      eval env on ρ d = .ok t ∧
      Batch t 1 1 (fun _ _ => val ⟨false, 3⟩ 0 0 * (val ⟨false, 0⟩ 0 0 + val ⟨false, 2⟩ 0 0 + 1)) ∧
      HasDerivAt (fun s => den ones (setAt val 1 0 0 s) (add (add (matmul a w false false) (matmul b w false false)) (matmul c w false false)) 0 0)
        (val ⟨false, 0⟩ 0 0 + val ⟨false, 2⟩ 0 0 + val ⟨false, 3⟩ 0 0) (val ⟨true, 1⟩ 0 0) := by
  subst ha hb hc hw
  let A : Term := .mm false false (.leaf ⟨false, 0⟩) (.leaf ⟨true, 1⟩)
  let B : Term := .mm false false (.leaf ⟨false, 2⟩) (.leaf ⟨true, 1⟩)
  let C : Term := .mm false false (.leaf ⟨false, 3⟩) (.leaf ⟨true, 1⟩)
  have hadd : add (add (matmul (.leaf ⟨false, 0⟩) (.leaf ⟨true, 1⟩) false false) (matmul (.leaf ⟨false, 2⟩) (.leaf ⟨true, 1⟩) false false))
      (matmul (.leaf ⟨false, 3⟩) (.leaf ⟨true, 1⟩) false false) = .bin .add (.bin .add A B) C := rfl
  rw [hadd]
  let q : Term → Term := fun m => .bin (.cond "eq".toList eqCmp) m m
  let r : Nat → Term → Term := fun l m => .mm true false (.tr (.leaf ⟨false, l⟩)) m
  let d : Term := r 3 (.bin .add (.bin .add (r 0 (q A)) (r 2 (q B))) (q C))
  have tA : Typed ones A := ⟨typed_ones _, typed_ones _, rfl⟩
  have tB : Typed ones B := ⟨typed_ones _, typed_ones _, rfl⟩
  have tC : Typed ones C := ⟨typed_ones _, typed_ones _, rfl⟩
  have tr : ∀ l m, Typed ones m → dims ones m = (1, 1) → Typed ones (r l m) := fun l m h hd => ⟨typed_ones _, h, by rw [hd]; rfl⟩
  have tq : ∀ m, Typed ones m → Typed ones (q m) := fun m h => ⟨h, .inl h, .inl rfl⟩
  have td : Typed ones d := by
    refine tr 3 _ ⟨⟨tr 0 _ (tq A tA) rfl, .inl (tr 2 _ (tq B tB) rfl), .inl rfl⟩, .inl (tq C tC), .inl rfl⟩ rfl
  obtain ⟨t, e1, e2⟩ := c60_eval (shp := ones) (val := val) env hm on ρ hρ d td
  refine ⟨d, t, ?_, e1, ?_, ?_⟩
  · simp [derive, Info.derive, Info.list, info, A, B, C, uses, inheritArgs, inherit2, inherit1, inherit, argGrad, isTerminal, pushBack, ginit2,
      Backprop.cond, add, jacobianCall, mmJacobian, isZero, matmul, transpose, mul, mulR, d, q, r, node2, grouping]
  · have hd : dims ones d = (1, 1) := rfl
    rw [hd] at e2
    refine batch_congr e2 (fun i j hi hj => ?_)
    obtain rfl : i = 0 := by omega
    obtain rfl : j = 0 := by omega
    simp [d, q, r, den, dims, pos, meet, ones, leafSize, K2.fn, Expr.ofCmp, eqCmp, A, B, C]
  · simp only [A, B, C, den, K2.fn, dims, pos, meet, ones, leafSize, setAt, sum_range_one, if_true]
    simp only [and_self, if_true, Leaf.mk.injEq, Bool.false_eq_true, false_and, if_false]
    have hid := hasDerivAt_id (val ⟨true, 1⟩ 0 0)
    exact (((hid.const_mul (val ⟨false, 0⟩ 0 0)).add (hid.const_mul (val ⟨false, 2⟩ 0 0))).add (hid.const_mul (val ⟨false, 3⟩ 0 0))).congr_deriv (by ring)

/-- A product whose factor has a gradient that cancels to zero: instead of zero the incoming gradient is passed on.
Here the factor is `w + (-w)`, so the value is always zero. -/
theorem c60_cancelled_factor (env : Verif.Env ℝ) (hm : ∀ n, env.fits n = true) (on : Bool) (ρ : Leaf → Tensor ℝ)
    (hρ : ∀ l, Holds (ρ l) [1, 1] (fun c => val l (c.getD 0 0) (c.getD 1 0))) (w b : Term)
    (hw : w = .leaf ⟨true, 1⟩) (hb : b = .leaf ⟨false, 0⟩) :
    ∃ d t, derive 1 (matmul (add w (neg w)) b false false) = .ok d ∧ eval env on ρ d = .ok t ∧ Batch t 1 1 (fun _ _ => 1) ∧
      HasDerivAt (fun s => den ones (setAt val 1 0 0 s) (matmul (add w (neg w)) b false false) 0 0) 0 (val ⟨true, 1⟩ 0 0) := by
  subst hw hb
  let M : Term := .mm false false (.bin .add (.leaf ⟨true, 1⟩) (.un .neg (.leaf ⟨true, 1⟩))) (.leaf ⟨false, 0⟩)
  have hM : matmul (add (.leaf ⟨true, 1⟩) (neg (.leaf ⟨true, 1⟩))) (.leaf ⟨false, 0⟩) false false = M := rfl
  rw [hM]
  let d : Term := .bin (.cond "eq".toList eqCmp) M M
  have tM : Typed ones M := ⟨⟨typed_ones _, .inl ⟨typed_ones _, by simp⟩, .inl rfl⟩, typed_ones _, rfl⟩
  have td : Typed ones d := ⟨tM, .inl tM, .inl rfl⟩
  obtain ⟨t, e1, e2⟩ := c60_eval (shp := ones) (val := val) env hm on ρ hρ d td
  refine ⟨d, t, ?_, e1, ?_, ?_⟩
  · simp [derive, Info.derive, Info.list, info, M, uses, inheritArgs, inherit2, inherit1, argGrad, isTerminal, pushBack, ginit1, ginit2,
      Backprop.cond, add, addL, neg, unop, K1.fn, jacobianCall, mmJacobian, isZero, d, node2, grouping]
  · have hd : dims ones d = (1, 1) := rfl
    rw [hd] at e2
    refine batch_congr e2 (fun i j hi hj => ?_)
    simp [d, den, M, dims, pos, meet, ones, leafSize, K2.fn, Expr.ofCmp, eqCmp]
  · have : (fun s => den ones (setAt val 1 0 0 s) M 0 0) = fun _ => 0 := by
      funext s
      simp [M, den, dims, pos, meet, ones, leafSize, K2.fn, K1.fn]
    rw [this]
    exact hasDerivAt_const _ _

/-- Leaves as in `c60_residual` and `c60_cancelled_factor`, with a second weight for which the two results differ. -/
example : ∃ (ρ : Leaf → Tensor ℝ) (val : Leaf → Nat → Nat → ℝ), (∀ l, Holds (ρ l) [1, 1] (fun c => val l (c.getD 0 0) (c.getD 1 0))) ∧
    2 * val ⟨false, 0⟩ 0 0 ≠ val ⟨false, 0⟩ 0 0 + val ⟨false, 0⟩ 0 0 * val ⟨true, 2⟩ 0 0 ∧
    val ⟨false, 3⟩ 0 0 * (val ⟨false, 0⟩ 0 0 + val ⟨false, 2⟩ 0 0 + 1) ≠ val ⟨false, 0⟩ 0 0 + val ⟨false, 2⟩ 0 0 + val ⟨false, 3⟩ 0 0 := by
  choose ρ hρ using fun _ : Leaf => full_tensor [1, 1] ⟨by simp, by simp⟩ (fun _ => 3)
  exact ⟨ρ, fun _ _ _ => 3, hρ, by norm_num, by norm_num⟩

/-- An affine node over a batch of five as in `c60_affine_bias`. -/
example : ∃ (shp : Leaf → List Nat) (a : Term), Typed shp a ∧ IsMm a ∧ shp ⟨true, 1⟩ = [(dims shp a).1] ∧ Free 1 a ∧ dims shp a = (2, 5) := by
  let shp : Leaf → List Nat := fun l => if l = ⟨true, 0⟩ then [2, 4] else if l = ⟨false, 0⟩ then [4, 5] else [2]
  refine ⟨shp, .mm false false (.leaf ⟨false, 0⟩) (.leaf ⟨true, 0⟩), ⟨⟨4, 5, by decide, by decide, .inl rfl⟩,
    ⟨2, 4, by decide, by decide, .inl rfl⟩, rfl⟩, trivial, rfl, by simp [Free], rfl⟩

end Verif.Props
