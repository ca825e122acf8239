import Verif.Lemmas.Activation
import Verif.Props.Expr
import Verif.Props.Elementary
import Verif.Props.Transform
import Mathlib.Analysis.SpecialFunctions.Trigonometric.DerivHyp
/-!
# C53: activation functions

Everywhere `cs` is an arbitrary history of constructions from the initial state, `h` an arbitrary hash
iteration order, `x` an arbitrary node and `ρ` an arbitrary assignment of values to leaves.
-/
namespace Verif.Props
open Expr Spec Activation
open scoped Classical

variable {fmt : ℝ → List Char} {cs : List (Hash × Call)} {S S' : St} {h : Hash}

/-! ## Helpers -/

theorem andThen_ok {x : M} {f : Nat → M} {S : St} {r : Nat × St} (h : andThen x f S = .ok r) :
    ∃ n S1, x S = .ok (n, S1) ∧ f n S1 = .ok r := by
  have h' : (x S >>= fun r => f r.1 r.2) = .ok r := h
  rw [Outcome.bind_eq_ok] at h'
  obtain ⟨⟨n, S1⟩, h1, h2⟩ := h'
  exact ⟨n, S1, h1, h2⟩

theorem andThen_of {x : M} {f : Nat → M} {S S1 : St} {n : Nat} (h : x S = .ok (n, S1)) : andThen x f S = f n S1 := by
  show (x S >>= fun r => f r.1 r.2) = _
  rw [h]; rfl

/-- All elements are positive, if the node is a constant. -/
def PosConst (S : St) (n : Nat) : Prop := ∀ d, constData S n = some d → ∀ v ∈ d, 0 < v

theorem unary_posConst {env : Expr.Env} {k : K1} {a n : Nat} (e : unary env k a S = .ok (n, S')) : PosConst S' n := by
  intro d hd
  exfalso
  unfold unary at e
  cases hh : (audience env S a (k.label env.fmt)).head? with
  | some p =>
    rw [hh] at e
    obtain ⟨nd, h1, _, h3⟩ := mem_audience (List.mem_of_mem_head? (by rw [hh]; rfl))
    cases e
    have hn := constData_node hd
    have : nd = .const d := by
      have : S.nodes[n]? = some (.const d) := hn
      rw [h1] at this; cases this; rfl
    subst this
    cases h3
  | none =>
    rw [hh] at e
    cases e
    simp [constData] at hd

theorem mkConst_pos {d : List ℝ} {n : Nat} (e : mkConst d S = .ok (n, S')) (hd : ∀ v ∈ d, 0 < v) : PosConst S' n := by
  cases e
  intro d' h'
  simp [constData] at h'
  subst h'; exact hd

theorem exp_posConst {env : Expr.Env} {a n : Nat} (e : unop env .exp a S = .ok (n, S')) : PosConst S' n := by
  unfold unop at e
  cases hd : constData S a with
  | some d =>
    rw [hd] at e
    refine mkConst_pos e ?_
    intro v hv
    obtain ⟨w, _, rfl⟩ := List.mem_map.mp hv
    exact Real.exp_pos w
  | none => rw [hd] at e; exact unary_posConst e

theorem add_posConst {d : List ℝ} {n : Nat} {f : ℝ → ℝ} (hf : ∀ v, 0 < v → 0 < f v) {c : ℝ} (hc : 0 < c)
    (e : (if d = [0] then mkConst [c] S else mkConst (d.map f) S) = .ok (n, S')) (hd : ∀ v ∈ d, 0 < v) : PosConst S' n := by
  split at e
  · exact mkConst_pos e (by simpa using hc)
  · refine mkConst_pos e ?_
    intro v hv
    obtain ⟨w, hw, rfl⟩ := List.mem_map.mp hv
    exact hf w (hd w hw)

theorem addL_posConst {env : Expr.Env} {b n : Nat} (e : addL env 1 b S = .ok (n, S')) (hp : PosConst S b) : PosConst S' n := by
  unfold addL at e
  rw [if_neg one_ne_zero] at e
  cases hd : constData S b with
  | some d =>
    rw [hd] at e
    exact add_posConst (fun v hv => by linarith) one_pos e (hp d hd)
  | none => rw [hd] at e; exact unary_posConst e

theorem addR_posConst {env : Expr.Env} {a n : Nat} (e : addR env a 1 S = .ok (n, S')) (hp : PosConst S a) : PosConst S' n := by
  unfold addR at e
  cases hd : constData S a with
  | some d =>
    rw [hd] at e
    exact add_posConst (fun v hv => by linarith) one_pos e (hp d hd)
  | none =>
    rw [hd] at e
    simp only [if_neg one_ne_zero] at e
    exact unary_posConst e

theorem posConst_ne_zero {n : Nat} (hp : PosConst S n) : constData S n ≠ some [0] := by
  intro h
  have := hp [0] h 0 (by simp)
  exact lt_irrefl _ this

/-- What the construction of `sigmoid` does. -/
theorem sigmoid_builds {env : Expr.Env} (I : Inv True env.fmt S) (x : Nat) (hx : x < S.nodes.length) :
    ∃ n S', sigmoid env x S = .ok (n, S') ∧ Inv True env.fmt S' ∧ Ext S S' ∧ n < S'.nodes.length ∧
      (NoClash env.fmt S' → (∀ ρ i u, Val S ρ i x u → Val S' ρ i n (1 / (1 + Real.exp (-u)))) ∧
        ∀ ρ i, Smooth S ρ i x → Smooth S' ρ i n) := by
  obtain ⟨n1, S1, a1, I1, e1, l1, v1, _⟩ := neg_builds I x hx
  obtain ⟨n2, S2, a2, I2, e2, l2, v2, _⟩ := unop_builds I1 .exp n1 l1 (by rintro _ ⟨⟩) (by rintro _ ⟨⟩) (Or.inl trivial)
  obtain ⟨n3, S3, a3, I3, e3, l3, v3, _⟩ := addL_builds I2 1 n2 l2
  have p3 := addL_posConst a3 (exp_posConst a2)
  obtain ⟨n4, S4, a4, I4, e4, l4, v4, _⟩ := divL_builds I3 1 n3 l3 (posConst_ne_zero p3)
  refine ⟨n4, S4, ?_, I4, ((e1.trans e2).trans e3).trans e4, l4, fun hc => ?_⟩
  · unfold sigmoid
    rw [andThen_of a1, andThen_of a2, andThen_of a3, a4]
  · have c3 := hc.of_ext e4
    have c2 := c3.of_ext e3
    have c1 := c2.of_ext e2
    have key : ∀ ρ i u, Val S ρ i x u → Val S3 ρ i n3 (1 + Real.exp (-u)) := fun ρ i u hu =>
      v3 c3 ρ i _ ⟨_, v2 c2 ρ i _ ⟨_, v1 c1 ρ i _ ⟨u, hu, rfl⟩, rfl⟩, rfl⟩
    refine ⟨fun ρ i u hu => v4 hc ρ i _ ⟨_, key ρ i u hu, rfl⟩, fun ρ i hs => ?_⟩
    obtain ⟨u, hu⟩ := smooth_val hs
    have s1 := neg_smooth I a1 c1 hs
    have s2 := unop_smooth I1 a2 c2 s1 (v1 c1 ρ i _ ⟨u, hu, rfl⟩) trivial
    have s3 := addL_smooth I2 a3 c3 s2
    exact divL_smooth I3 a4 hc s3 (key ρ i u hu) (by have := Real.exp_pos (-u); linarith)

/-- What the construction of `tanh` does. -/
theorem tanh_builds {env : Expr.Env} (I : Inv True env.fmt S) (x : Nat) (hx : x < S.nodes.length) :
    ∃ n S', Activation.tanh env x S = .ok (n, S') ∧ Inv True env.fmt S' ∧ Ext S S' ∧ n < S'.nodes.length ∧
      (NoClash env.fmt S' → (∀ ρ i u, Val S ρ i x u → Val S' ρ i n ((Real.exp (2 * u) - 1) / (Real.exp (2 * u) + 1))) ∧
        ∀ ρ i, Smooth S ρ i x → Smooth S' ρ i n) := by
  obtain ⟨n1, S1, a1, I1, e1, l1, v1, _⟩ := mulL_builds I 2 x hx
  obtain ⟨n2, S2, a2, I2, e2, l2, v2, _⟩ := unop_builds I1 .exp n1 l1 (by rintro _ ⟨⟩) (by rintro _ ⟨⟩) (Or.inl trivial)
  obtain ⟨n3, S3, a3, I3, e3, l3, v3, _⟩ := subR_builds I2 n2 1 l2
  have l2' := Nat.lt_of_lt_of_le l2 e3.length
  obtain ⟨n4, S4, a4, I4, e4, l4, v4, _⟩ := addR_builds I3 n2 1 l2'
  have p2 : PosConst S3 n2 := by
    intro d hd
    rw [constData_ext e3 l2] at hd
    exact exp_posConst a2 d hd
  have p4 := addR_posConst a4 p2
  have l3' := Nat.lt_of_lt_of_le l3 e4.length
  obtain ⟨n5, S5, a5, I5, e5, l5, v5, _⟩ := div_builds I4 n3 n4 l3' l4 (posConst_ne_zero p4)
  refine ⟨n5, S5, ?_, I5, (((e1.trans e2).trans e3).trans e4).trans e5, l5, fun hc => ?_⟩
  · unfold Activation.tanh
    rw [andThen_of a1, andThen_of a2, andThen_of a3, andThen_of a4, a5]
  · have c4 := hc.of_ext e5
    have c3 := c4.of_ext e4
    have c2 := c3.of_ext e3
    have c1 := c2.of_ext e2
    have k2 : ∀ ρ i u, Val S ρ i x u → Val S2 ρ i n2 (Real.exp (2 * u)) := fun ρ i u hu =>
      v2 c2 ρ i _ ⟨_, v1 c1 ρ i _ ⟨u, hu, rfl⟩, rfl⟩
    have k3 : ∀ ρ i u, Val S ρ i x u → Val S4 ρ i n3 (Real.exp (2 * u) - 1) := fun ρ i u hu =>
      (v3 c3 ρ i _ ⟨_, k2 ρ i u hu, rfl⟩).mono e4
    have k4 : ∀ ρ i u, Val S ρ i x u → Val S4 ρ i n4 (Real.exp (2 * u) + 1) := fun ρ i u hu =>
      v4 c4 ρ i _ ⟨_, (k2 ρ i u hu).mono e3, rfl⟩
    have pos : ∀ u : ℝ, Real.exp (2 * u) + 1 ≠ 0 := fun u => by have := Real.exp_pos (2 * u); linarith
    refine ⟨fun ρ i u hu => v5 hc ρ i _ ⟨_, _, k3 ρ i u hu, k4 ρ i u hu, pos u, rfl⟩, fun ρ i hs => ?_⟩
    obtain ⟨u, hu⟩ := smooth_val hs
    have s1 := mulL_smooth I a1 c1 hs
    have s2 := unop_smooth I1 a2 c2 s1 (v1 c1 ρ i _ ⟨u, hu, rfl⟩) trivial
    have s3 := subR_smooth I2 a3 c3 s2
    have s4 := addR_smooth I3 a4 c4 (s2.mono e3)
    exact div_smooth I4 a5 hc (s3.mono e4) s4 (k4 ρ i u hu) (pos u)

/-! ## C53: sigmoid and tanh -/

/-- `sigmoid` can be built on every node, constant or not, and its value is `1 / (1 + exp(-u))`, strictly
between 0 and 1. -/
theorem c53_sigmoid (hr : run fmt cs St.init = .ok S) (x : Nat) (hx : x < S.nodes.length) :
    ∃ n S', sigmoid ⟨h, fmt⟩ x S = .ok (n, S') ∧ (NoClash fmt S' → ∀ ρ i u, Val S ρ i x u →
      ∃ v, Val S' ρ i n v ∧ v = 1 / (1 + Real.exp (-u)) ∧ 0 < v ∧ v < 1) := by
  obtain ⟨n, S', a, _, _, _, hv⟩ := sigmoid_builds (env := ⟨h, fmt⟩) (reach hr) x hx
  refine ⟨n, S', a, fun hc ρ i u hu => ⟨_, (hv hc).1 ρ i u hu, rfl, ?_, ?_⟩⟩
  · have := Real.exp_pos (-u); positivity
  · have := Real.exp_pos (-u)
    rw [div_lt_one (by positivity)]; linarith

theorem tanh_formula (u : ℝ) : (Real.exp (2 * u) - 1) / (Real.exp (2 * u) + 1) = Real.tanh u := by
  rw [Real.tanh_eq_sinh_div_cosh, Real.sinh_eq, Real.cosh_eq]
  have e : Real.exp (2 * u) = Real.exp u * Real.exp u := by rw [← Real.exp_add]; ring_nf
  have e' : Real.exp (-u) * Real.exp u = 1 := by rw [← Real.exp_add]; simp
  have p := Real.exp_pos u
  have q := Real.exp_pos (-u)
  rw [e, div_div_div_cancel_right₀ (by norm_num), div_eq_div_iff (by positivity) (by positivity)]
  linear_combination (2 * Real.exp u) * e'

/-- `tanh` can be built on every node, and its value is the hyperbolic tangent, strictly between -1 and 1. -/
theorem c53_tanh (hr : run fmt cs St.init = .ok S) (x : Nat) (hx : x < S.nodes.length) :
    ∃ n S', Activation.tanh ⟨h, fmt⟩ x S = .ok (n, S') ∧ (NoClash fmt S' → ∀ ρ i u, Val S ρ i x u →
      ∃ v, Val S' ρ i n v ∧ v = Real.tanh u ∧ -1 < v ∧ v < 1) := by
  obtain ⟨n, S', a, _, _, _, hv⟩ := tanh_builds (env := ⟨h, fmt⟩) (reach hr) x hx
  refine ⟨n, S', a, fun hc ρ i u hu => ⟨_, (hv hc).1 ρ i u hu, tanh_formula u, ?_, ?_⟩⟩
  · have := Real.exp_pos (2 * u)
    rw [lt_div_iff₀ (by positivity)]; linarith
  · have := Real.exp_pos (2 * u)
    rw [div_lt_one (by positivity)]; linarith

/-- The derivative graph of `sigmoid(x)` with respect to a variable `y` evaluates to `σ (1 - σ)` times the
derivative of `x`. -/
theorem c53_sigmoid_derivative (hr : run fmt cs St.init = .ok S) (x n y d : Nat) {S1 S2 : St} {h' : Hash}
    (hb : sigmoid ⟨h, fmt⟩ x S = .ok (n, S1)) (hy : S.nodes[y]? = some (.leaf true))
    (hd : derive ⟨h', fmt⟩ n y S1 = .ok (d, S2)) (hc : NoClash fmt S2) (ρ : Nat → ℝ) (i : Nat) (hs : Smooth S ρ i x)
    (F : ℝ → ℝ) (w : ℝ) (hF : ∀ t, Val S (change ρ y t) i x (F t)) (hw : HasDerivAt F w (ρ y)) :
    let σ := 1 / (1 + Real.exp (-F (ρ y)))
    Val S2 ρ i d (σ * (1 - σ) * w) := by
  obtain ⟨n', S1', a, I1, e1, l1, hv⟩ := sigmoid_builds (env := ⟨h, fmt⟩) (reach hr) x hs.lt
  rw [hb] at a; cases a
  obtain ⟨d', S2', g1, _, g3, _, g5, _⟩ := gradient_builds (env := ⟨h', fmt⟩) y (n + 1) n S1 I1 (Nat.lt_succ_self n) l1 (e1.node hy)
  have hd' : gradient ⟨h', fmt⟩ y (n + 1) n S1 = .ok (d, S2) := hd
  rw [g1] at hd'; cases hd'
  have c1 := hc.of_ext g3
  refine g5 hc ρ i _ ⟨(hv c1).2 ρ i hs, fun t => 1 / (1 + Real.exp (-F t)), fun t => (hv c1).1 _ i _ (hF t), ?_⟩
  have p : 1 + Real.exp (-F (ρ y)) ≠ 0 := by have := Real.exp_pos (-F (ρ y)); linarith
  have h1 : HasDerivAt (fun t => 1 + Real.exp (-F t)) (Real.exp (-F (ρ y)) * (-w)) (ρ y) := (hw.neg.exp).const_add 1
  have h2 := (hasDerivAt_const (ρ y) (1 : ℝ)).div h1 p
  refine h2.congr_deriv ?_
  field_simp
  ring

/-- … and that of `tanh(x)` to `1 - tanh²` times the derivative of `x`. -/
theorem c53_tanh_derivative (hr : run fmt cs St.init = .ok S) (x n y d : Nat) {S1 S2 : St} {h' : Hash}
    (hb : Activation.tanh ⟨h, fmt⟩ x S = .ok (n, S1)) (hy : S.nodes[y]? = some (.leaf true))
    (hd : derive ⟨h', fmt⟩ n y S1 = .ok (d, S2)) (hc : NoClash fmt S2) (ρ : Nat → ℝ) (i : Nat) (hs : Smooth S ρ i x)
    (F : ℝ → ℝ) (w : ℝ) (hF : ∀ t, Val S (change ρ y t) i x (F t)) (hw : HasDerivAt F w (ρ y)) :
    Val S2 ρ i d ((1 - Real.tanh (F (ρ y)) ^ 2) * w) := by
  obtain ⟨n', S1', a, I1, e1, l1, hv⟩ := tanh_builds (env := ⟨h, fmt⟩) (reach hr) x hs.lt
  rw [hb] at a; cases a
  obtain ⟨d', S2', g1, _, g3, _, g5, _⟩ := gradient_builds (env := ⟨h', fmt⟩) y (n + 1) n S1 I1 (Nat.lt_succ_self n) l1 (e1.node hy)
  have hd' : gradient ⟨h', fmt⟩ y (n + 1) n S1 = .ok (d, S2) := hd
  rw [g1] at hd'; cases hd'
  have c1 := hc.of_ext g3
  refine g5 hc ρ i _ ⟨(hv c1).2 ρ i hs, fun t => (Real.exp (2 * F t) - 1) / (Real.exp (2 * F t) + 1),
    fun t => (hv c1).1 _ i _ (hF t), ?_⟩
  have p : Real.exp (2 * F (ρ y)) + 1 ≠ 0 := by have := Real.exp_pos (2 * F (ρ y)); linarith
  have h0 : HasDerivAt (fun t => Real.exp (2 * F t)) (Real.exp (2 * F (ρ y)) * (2 * w)) (ρ y) := (hw.const_mul 2).exp
  have h2 := (h0.sub_const 1).div (h0.add_const 1) p
  refine h2.congr_deriv ?_
  rw [← tanh_formula]
  field_simp
  ring

/-! ## C53: softmax -/

open Op Elementary Transform

theorem fold1_sum (l : List ℝ) : fold1 (· + ·) l = l.sum := by
  cases l with
  | nil => rfl
  | cons a l =>
    show l.foldl (· + ·) a = _
    rw [List.sum_cons, List.sum_eq_foldl]
    have : ∀ (l : List ℝ) (a b : ℝ), l.foldl (· + ·) (a + b) = a + l.foldl (· + ·) b := by
      intro l
      induction l with
      | nil => intro a b; rfl
      | cons c l ih => intro a b; rw [List.foldl_cons, List.foldl_cons, add_assoc, ih]
    have := this l a 0
    rwa [add_zero] at this

theorem holds_raw {t : Tensor ℝ} {s : List Nat} {f : List Nat → ℝ} (ht : Holds t s f) : t.raw = some (bufOf s f) := by
  obtain ⟨buf, hb, hl, hd⟩ := ht.data
  rw [hb]
  congr 1
  apply List.ext_getElem?
  intro i
  by_cases hi : i < vol s
  · have h1 := hd (coords s i) (Shape.coords_inRange ht.full.2 i)
    rw [Shape.flat_coords ht.full.2 hi] at h1
    rw [h1]
    simp [bufOf, hi]
  · rw [List.getElem?_eq_none (by omega), List.getElem?_eq_none (by simp; omega)]

/-- A unary element-wise node maps its buffer. -/
theorem unary_raw (e : Verif.Env ℝ) (op : ℝ → ℝ) (a : Tensor ℝ) (s : List Nat) (fa : List Nat → ℝ)
    (ha : Holds a s fa) (hm : ∀ n, e.fits n = true) :
    ∃ t' s' f', forwardPass e elementaryShaper (unaryElem op) none [some a] = .ok t' ∧ Holds t' s' f' ∧
      t'.raw = some ((bufOf s fa).map op) ∧ s' = if vol s = 1 then [1] else s := by
  obtain ⟨t', h1, h2, h3⟩ := c16_unary e op a s fa ha hm
  by_cases hv : vol s = 1
  · refine ⟨t', [1], _, h1, h3 hv, ?_, by rw [if_pos hv]⟩
    rw [holds_raw (h3 hv)]
    have : coords s 0 = List.replicate s.length 0 := by
      clear h3 h2 h1 ha hv
      induction s with
      | nil => rfl
      | cons d ds ih => simp [coords, ih, List.replicate_succ]
    simp [bufOf, hv, vol, this]
  · refine ⟨t', s, _, h1, h2 hv, ?_, by rw [if_neg hv]⟩
    rw [holds_raw (h2 hv)]
    simp [bufOf]

/-- `softmax` of every allocated tensor succeeds; its elements are `exp(xᵢ) / Σ exp(xⱼ)`, positive and summing
to 1.  The sum runs over *all* elements, whatever the shape (also over a whole batch). -/
theorem c53_softmax (e : Verif.Env ℝ) (hm : ∀ n, e.fits n = true) (t : Tensor ℝ) (b : List ℝ) (hw : t.WF) (hb : t.raw = some b) :
    ∃ t' res, softmax e t = .ok t' ∧ t'.raw = some res ∧ res.length = b.length ∧
      (∀ (i : Nat) (x : ℝ), b[i]? = some x → res[i]? = some (Real.exp x / (b.map Real.exp).sum)) ∧
      (∀ v ∈ res, 0 < v) ∧ res.sum = 1 := by
  obtain ⟨hfull, hlen⟩ := hw b hb
  obtain ⟨f, hf⟩ := exists_holds hw ((Tensor.isAlloc_iff t).2 ⟨hfull, b, hb⟩)
  have hbf : b = bufOf t.alloc f := by have := holds_raw hf; rw [hb] at this; exact Option.some.inj this
  obtain ⟨ex, s', g, h1, h2, h3, h4⟩ := unary_raw e Real.exp t t.alloc f hf hm
  rw [← hbf] at h3
  have hbg : b.map Real.exp = bufOf s' g := by have := holds_raw h2; rw [h3] at this; exact Option.some.inj this
  obtain ⟨sm, h5, h6⟩ := c19_all e (· + ·) ex s' g h2 (hm 1)
  have h6r := holds_raw h6
  have hsum : sm.raw = some [(b.map Real.exp).sum] := by
    rw [h6r, hbg]
    simp only [bufOf, vol, fold1_sum, List.prod_cons, List.prod_nil]
    simp
  have hout : ∃ out, elementaryShaper [ex.alloc, sm.alloc] = .ok out ∧ vol out = b.length := by
    rw [h2.shape, h6.shape, c17_binary s' [1] h2.full (by decide), if_pos (by decide)]
    have hl : vol s' = b.length := by
      have := congrArg List.length hbg
      simpa using this.symm
    by_cases hv : vol s' = 1
    · rw [if_pos hv]; exact ⟨_, rfl, by rw [← hl, hv]; rfl⟩
    · rw [if_neg hv]; exact ⟨_, rfl, hl⟩
  obtain ⟨out, hs, ho⟩ := hout
  have wex : ex.WF := by
    intro d hd
    rw [h3] at hd; cases hd
    rw [h2.shape]
    exact ⟨h2.full, by rw [hbg]; simp⟩
  have wsm : sm.WF := by
    intro d hd
    rw [hsum] at hd; cases hd
    rw [h6.shape]
    exact ⟨by decide, by simp [vol]⟩
  obtain ⟨t', res, h7, h8, h9, h10, h11⟩ := c16_binary e (· / ·) ex sm _ _ out wex wsm h3 hsum hs (hm _)
  have hres : res = b.map (fun x => Real.exp x / (b.map Real.exp).sum) := by
    apply List.ext_getElem?
    intro i
    by_cases hi : i < vol out
    · obtain ⟨x, y, hx, hy, hr⟩ := h11 i hi
      rw [hr]
      have hy' : y = (b.map Real.exp).sum := by simp [elemAt] at hy; exact hy.symm
      have hi' : i < b.length := by omega
      have hx' : x = Real.exp b[i] := by
        unfold elemAt at hx
        split at hx
        · rename_i h1'
          have : i = 0 := by simp at h1'; omega
          subst this
          simp [hi'] at hx; exact hx.symm
        · simp [hi'] at hx; exact hx.symm
      rw [List.getElem?_map, List.getElem?_eq_getElem hi', hx', hy']
      rfl
    · rw [List.getElem?_eq_none (by omega), List.getElem?_eq_none (by simp; omega)]
  have hb0 : b ≠ [] := by
    intro h0
    have := Shape.vol_pos hfull.2
    rw [h0] at hlen; simp at hlen; omega
  have hpos : 0 < (b.map Real.exp).sum := by
    apply List.sum_pos
    · intro x hx
      obtain ⟨y, _, rfl⟩ := List.mem_map.mp hx
      exact Real.exp_pos y
    · simpa using hb0
  refine ⟨t', res, ?_, h9, by rw [hres]; simp, ?_, ?_, ?_⟩
  · unfold softmax
    rw [h1, Outcome.ok_bind]
    have h5' : forwardPass e compressAllShaper (compressAllKernel (· + ·)) none [some ex] = .ok sm := h5
    rw [h5', Outcome.ok_bind, h7]
  · intro i x hx
    rw [hres, List.getElem?_map, hx]; rfl
  · intro v hv
    rw [hres] at hv
    obtain ⟨y, _, rfl⟩ := List.mem_map.mp hv
    exact div_pos (Real.exp_pos y) hpos
  · have hl : ∀ (l : List ℝ) (c : ℝ), (l.map (fun x => Real.exp x / c)).sum = (l.map Real.exp).sum / c := by
      intro l c
      induction l with
      | nil => simp
      | cons a l ih => simp only [List.map_cons, List.sum_cons, ih]; ring
    rw [hres, hl, div_self (ne_of_gt hpos)]

/-! ### Concrete cases -/

/-- The state with one variable (node 2). -/
def stX : St := { St.init with nodes := St.init.nodes ++ [.leaf true] }

/-- … and with `sigmoid` of it. -/
def stSig : St :=
  { nodes := [.const [0], .const [1], .leaf true, .un .neg 2, .un .exp 3, .un (.addL 1) 4, .un (.divL 1) 5], cache := fun _ _ => none,
    asked1 := [.divL 1, .addL 1, .exp, .neg], asked2 := [] }

theorem lookup_args {l : List Node} {a : Nat} (h : ∀ nd ∈ l, a ∉ nd.args) : ∀ (q : Nat) (nd : Node), l[q]? = some nd → a ∈ nd.args → False :=
  fun _ nd hq ha => h nd (List.mem_of_getElem? hq) ha

theorem sigmoid_stX : sigmoid ⟨idHash, fun _ => []⟩ 2 stX = .ok (6, stSig) := by
  unfold sigmoid
  have a1 : neg ⟨idHash, fun _ => []⟩ 2 stX = .ok (3, { stX with nodes := stX.nodes ++ [.un .neg 2], asked1 := [.neg] }) := by
    rw [show neg ⟨idHash, fun _ => []⟩ 2 stX = unary ⟨idHash, fun _ => []⟩ .neg 2 stX from rfl]
    rw [unary_fresh (fun q nd hq ha => (lookup_args (l := stX.nodes) (by simp [stX, St.init, Node.args]) q nd hq ha).elim)]
    rfl
  rw [andThen_of a1]
  have a2 : ∀ T : St, T = { stX with nodes := stX.nodes ++ [.un .neg 2], asked1 := [.neg] } →
      unop ⟨idHash, fun _ => []⟩ .exp 3 T = .ok (4, { stX with nodes := stX.nodes ++ [.un .neg 2, .un .exp 3], asked1 := [.exp, .neg] }) := by
    rintro T rfl
    rw [show ∀ T : St, constData T 3 = none → unop ⟨idHash, fun _ => []⟩ .exp 3 T = unary ⟨idHash, fun _ => []⟩ .exp 3 T from fun T hT => by unfold unop; rw [hT]]
    · rw [unary_fresh (fun q nd hq ha => (lookup_args (by simp [stX, St.init, Node.args]) q nd hq ha).elim)]
      rfl
    · rfl
  rw [andThen_of (a2 _ rfl)]
  have a3 : ∀ T : St, T = { stX with nodes := stX.nodes ++ [.un .neg 2, .un .exp 3], asked1 := [.exp, .neg] } →
      addL ⟨idHash, fun _ => []⟩ 1 4 T = .ok (5, { stX with nodes := stX.nodes ++ [.un .neg 2, .un .exp 3, .un (.addL 1) 4], asked1 := [.addL 1, .exp, .neg] }) := by
    rintro T rfl
    unfold addL
    rw [if_neg one_ne_zero]
    show unary _ (.addL 1) 4 _ = _
    rw [unary_fresh (fun q nd hq ha => (lookup_args (by simp [stX, St.init, Node.args]) q nd hq ha).elim)]
    rfl
  rw [andThen_of (a3 _ rfl)]
  unfold divL
  show (if (1 : ℝ) = 0 then _ else unary _ (.divL 1) 5 _) = _
  rw [if_neg one_ne_zero, unary_fresh (fun q nd hq ha => (lookup_args (by simp [stX, St.init, Node.args]) q nd hq ha).elim)]
  rfl

theorem stSig_noClash : NoClash (fun _ => []) stSig := by
  refine ⟨?_, by simp [stSig], by simp [stSig]⟩
  intro k hk k' hk'
  simp only [stSig, List.mem_cons, List.not_mem_nil, or_false] at hk hk'
  rcases hk with rfl | rfl | rfl | rfl <;> rcases hk' with rfl | rfl | rfl | rfl <;> simp [K1.label, K1.parts, List.intercalate]

/-- Non-trivial instance of `c53_sigmoid`: with the variable at 0 the value is 1/2. -/
example : Val stSig (fun _ => 0) 0 6 (1 / 2) := by
  obtain ⟨n, S', a, hv⟩ := c53_sigmoid (h := idHash) (fmt := fun _ => []) (cs := [(idHash, .leaf true)]) (S := stX) rfl 2 (by simp [stX, St.init])
  rw [sigmoid_stX] at a; cases a
  obtain ⟨v, h1, h2, _⟩ := hv stSig_noClash (fun _ => 0) 0 0 (.leaf (tr := true) rfl)
  rw [h2] at h1
  simpa [show (1 : ℝ) + 1 = 2 by norm_num] using h1

/-- Non-trivial instance of `c53_sigmoid_derivative`: every hypothesis but the absence of clashes in the final state
(which depends on the names of the operations of the derivative) is met by `sigmoid` of a variable, and then the
derivative at 0 is 1/4. -/
example : ∃ d S2, derive ⟨idHash, fun _ => []⟩ 6 2 stSig = .ok (d, S2) ∧ (NoClash (fun _ => []) S2 → Val S2 (fun _ => 0) 0 d (1 / 4)) := by
  have hrun : run (fun _ => []) [(idHash, .leaf true)] St.init = .ok stX := rfl
  obtain ⟨n', S1', a, I1, e1, l1, _⟩ := sigmoid_builds (env := ⟨idHash, fun _ => []⟩) (reach hrun) 2 (by simp [stX, St.init])
  rw [sigmoid_stX] at a; cases a
  obtain ⟨d, S2, g1, _⟩ := gradient_builds (env := ⟨idHash, fun _ => []⟩) 2 7 6 stSig I1 (by omega) l1 rfl
  refine ⟨d, S2, g1, fun hc => ?_⟩
  have := c53_sigmoid_derivative hrun 2 6 2 d sigmoid_stX rfl g1 hc (fun _ => 0) 0 (.leaf (tr := true) rfl) id 1
    (fun t => by have := Val.leaf (S := stX) (ρ := change (fun _ => 0) 2 t) (i := 0) (n := 2) (tr := true) rfl; simpa [change] using this) (hasDerivAt_id _)
  have e : (1 : ℝ) / (1 + Real.exp (-id 0)) * (1 - 1 / (1 + Real.exp (-id 0))) * 1 = 1 / 4 := by
    simp only [id, neg_zero, Real.exp_zero]; norm_num
  have this' : Val S2 (fun _ => 0) 0 d ((1 : ℝ) / (1 + Real.exp (-id 0)) * (1 - 1 / (1 + Real.exp (-id 0))) * 1) := this
  rwa [e] at this'

/-- Non-trivial instance of `c53_softmax`: a 2 x 2 batch; every element gets 1/4 although each column would
separately get 1/2. -/
example : ∃ t' res, softmax { junk := fun _ => 7, zero := 0, fits := fun _ => true } (⟨some [5, 5, 5, 5], [2, 2], [2, 2]⟩ : Tensor ℝ) = .ok t' ∧
    t'.raw = some res ∧ res[0]? = some (1 / 4) := by
  obtain ⟨t', res, h1, h2, _, h3, _⟩ := c53_softmax { junk := fun _ => 7, zero := 0, fits := fun _ => true } (fun _ => rfl)
    (⟨some [5, 5, 5, 5], [2, 2], [2, 2]⟩ : Tensor ℝ) [5, 5, 5, 5]
    (by intro b hb; cases hb; exact ⟨by decide, rfl⟩) rfl
  refine ⟨t', res, h1, h2, ?_⟩
  rw [h3 0 5 rfl]
  have : ([5, 5, 5, 5].map Real.exp).sum = 4 * Real.exp 5 := by simp; ring
  rw [this]
  congr 1
  have := Real.exp_pos 5
  field_simp

end Verif.Props
