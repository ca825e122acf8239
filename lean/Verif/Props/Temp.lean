import Verif.Lemmas.Temp
import Verif.Props.Expr
/-!
# C74: derivatives with respect to an operation

`S` is any state reached by a history of constructions and derivations.
-/
namespace Verif.Props
open Expr Spec

variable {fmt : ℝ → List Char} {S S' : St} {y t r : Nat}

/-- `y->derive(t)` for two different operations of one graph returns the value `y` would have if `t` were 1,
whatever the expression between them, for all values of the leaves. -/
theorem c74_value (hb : Built fmt S) (hy : Operation S y) (ht : Operation S t) (hne : y ≠ t) (hl : OneGraph S y t)
    (he : deriveOp y t S = .ok (r, S')) (ρ : Nat → ℝ) (i : Nat) (v : ℝ) :
    Val S' ρ i r v ↔ With S ρ i t 1 y v := by
  obtain ⟨r', S'', e, _, _, _, _, h, _⟩ := deriveOp_ok (y := y) (built_ready hb) ht
  rw [e] at he; cases he
  exact h hne ⟨hy, hl⟩ ρ i v

/-- Otherwise the answer is the derivative: 1 for the node itself, and 0 when `y` is a leaf or an operation of
another graph, and then `t` is not below `y`. -/
theorem c74_self (hb : Built fmt S) (ht : Operation S t) (ρ : Nat → ℝ) (i : Nat) :
    ∃ r, deriveOp t t S = .ok (r, S) ∧ Val S ρ i r 1 := by
  obtain ⟨r', S'', e, _, _, _, h, _⟩ := deriveOp_ok (y := t) (built_ready hb) ht
  obtain ⟨rfl, rfl⟩ := h rfl
  exact ⟨1, e, .const (built_ready hb).one (constAt_single 1 i)⟩

theorem c74_apart (hb : Built fmt S) (ht : Operation S t) (hne : y ≠ t) (hl : ¬ (Operation S y ∧ OneGraph S y t)) (ρ : Nat → ℝ) (i : Nat) :
    (∃ r, deriveOp y t S = .ok (r, S) ∧ Val S ρ i r 0) ∧ ∀ (c v : ℝ), With S ρ i t c y v ↔ Val S ρ i y v := by
  obtain ⟨r', S'', e, _, _, _, _, _, h⟩ := deriveOp_ok (y := y) (built_ready hb) ht
  obtain ⟨rfl, rfl⟩ := h hne hl
  refine ⟨⟨0, e, .const (built_ready hb).zero (constAt_single 0 i)⟩, fun c v => with_val fun hbel => ?_⟩
  exact hl ⟨below_operation hbel ht, .symm _ _ (below_linked hbel ht)⟩

/-- The call always succeeds, keeps every node with its value, and the state stays one of those considered. -/
theorem c74_succeeds (hb : Built fmt S) (hy : y < S.nodes.length) (ht : Operation S t) :
    ∃ r S', deriveOp y t S = .ok (r, S') ∧ r < S'.nodes.length ∧ Built fmt S' ∧
      ∀ (ρ : Nat → ℝ) (i m : Nat) (v : ℝ), m < S.nodes.length → S'.nodes[m]? = S.nodes[m]? ∧ (Val S' ρ i m v ↔ Val S ρ i m v) := by
  obtain ⟨r, S', e, _, x, hr, _⟩ := deriveOp_ok (y := y) (built_ready hb) ht
  refine ⟨r, S', e, hr, ?_, fun ρ i m v hm => ⟨x.node' hm, val_ext (built_ready hb).wf x hm⟩⟩
  obtain ⟨cs, ds, S0, h1, h2⟩ := hb
  refine ⟨cs, ds ++ [(y, t)], S0, h1, ?_⟩
  clear h1
  induction ds generalizing S0 with
  | nil =>
    cases h2
    simp only [List.nil_append, runOps]
    rw [if_pos ⟨hy, isOp_iff.mpr ht⟩, e]; rfl
  | cons d ds ih =>
    rw [List.cons_append]
    rw [runOps] at h2 ⊢
    by_cases hc : d.1 < S0.nodes.length ∧ isOp S0 d.2 = true
    · rw [if_pos hc] at h2 ⊢
      obtain ⟨q, e1, e2⟩ := Outcome.bind_eq_ok.mp h2
      rw [e1, Outcome.ok_bind]
      exact ih q.2 e2
    · rw [if_neg hc] at h2; cases h2

/-- So the answer is the derivative of `y` with respect to `t` exactly when that derivative happens to be the
value of `y` at `t = 1`. -/
theorem c74_right_iff (hb : Built fmt S) (hy : Operation S y) (ht : Operation S t) (hne : y ≠ t) (hl : OneGraph S y t)
    (he : deriveOp y t S = .ok (r, S')) (ρ : Nat → ℝ) (i : Nat) (F : ℝ → ℝ) (hF : ∀ c, With S ρ i t c y (F c)) (p : ℝ) :
    (∃ D, Val S' ρ i r D ∧ HasDerivAt F D p) ↔ HasDerivAt F (F 1) p := by
  constructor
  · rintro ⟨D, h1, h2⟩
    rw [c74_value hb hy ht hne hl he] at h1
    rw [With.unique (hF 1) h1]; exact h2
  · exact fun h => ⟨F 1, (c74_value hb hy ht hne hl he ρ i _).mpr (hF 1), h⟩

/-- It is right everywhere when `y` is proportional to `t`. -/
theorem c74_linear (hb : Built fmt S) (hy : Operation S y) (ht : Operation S t) (hne : y ≠ t) (hl : OneGraph S y t)
    (he : deriveOp y t S = .ok (r, S')) (ρ : Nat → ℝ) (i : Nat) (s : ℝ) (hF : ∀ c, With S ρ i t c y (s * c)) (p : ℝ) :
    ∃ D, Val S' ρ i r D ∧ HasDerivAt (fun c => s * c) D p := by
  rw [c74_right_iff hb hy ht hne hl he ρ i (fun c => s * c) hF p]
  simpa using (hasDerivAt_id p).const_mul s

/-! ### A concrete history: `x`, `t = 2 * x`, `y = k(t)` for a unary operation `k` -/

/-- Nodes 2, 3, 4 are `x`, `t`, `y`. -/
def stTY (k : K1) : St :=
  { nodes := [.const [0], .const [1], .leaf true, .un (.mulL 2) 2, .un k 3], cache := fun _ _ => none, asked1 := [k, .mulL 2], asked2 := [] }

theorem run_stTY (fmt : ℝ → List Char) (h : Hash) (k : K1)
    (hk : callUn ⟨h, fmt⟩ k 3 (stB 2) = unary ⟨h, fmt⟩ k 3 (stB 2)) :
    run fmt [(h, .leaf true), (h, .un (.mulL 2) 2), (h, .un k 3)] St.init = .ok (stTY k) := by
  have h1 := run_stB fmt h h 2 (by norm_num) (by norm_num) (by norm_num)
  rw [run, Outcome.bind_eq_ok] at h1
  obtain ⟨q, e1, h1⟩ := h1
  rw [run, Outcome.bind_eq_ok] at h1
  obtain ⟨q', e2, h1⟩ := h1
  rw [run, e1, Outcome.ok_bind, run, e2, Outcome.ok_bind]
  have h3 : q'.2 = stB 2 := Outcome.ok.inj h1
  rw [h3, run, exec_un (by simp [stB]), hk, unary_fresh]
  · rfl
  · intro q nd hq ha
    match q, hq with
    | 0, hq => simp [stB] at hq; rw [← hq] at ha; cases ha
    | 1, hq => simp [stB] at hq; rw [← hq] at ha; cases ha
    | 2, hq => simp [stB] at hq; rw [← hq] at ha; cases ha
    | 3, hq => simp [stB] at hq; rw [← hq] at ha; simp [Node.args] at ha
    | n + 4, hq => simp [stB] at hq

theorem built_stTY (fmt : ℝ → List Char) (k : K1) (hk : ∀ h, callUn ⟨h, fmt⟩ k 3 (stB 2) = unary ⟨h, fmt⟩ k 3 (stB 2)) : Built fmt (stTY k) :=
  ⟨_, [], _, run_stTY fmt idHash k (hk _), rfl⟩

theorem op_t (k : K1) : Operation (stTY k) 3 := ⟨2, _, rfl, by simp [Node.args]⟩
theorem op_y (k : K1) : Operation (stTY k) 4 := ⟨3, _, rfl, by simp [Node.args]⟩
theorem linked_ty (k : K1) : OneGraph (stTY k) 4 3 := .symm _ _ (.rel _ _ ⟨op_t k, _, rfl, by simp [Node.args]⟩)
theorem with_ty (k : K1) (ρ : Nat → ℝ) (i : Nat) (c : ℝ) : With (stTY k) ρ i 3 c 4 (k.fn c) :=
  .un (by simp) (k := k) (a := 3) rfl .here

/-- `t + c` differentiated by `t` comes out as `1 + c`, and `t * t` as 1: the derivatives are 1 and `2 t`.  Here
`t = 2 * x`. -/
theorem c74_not_derivative (fmt : ℝ → List Char) (h : Hash) (c : ℝ) (hc : c ≠ 0) :
    (∃ S r S', run fmt [(h, .leaf true), (h, .un (.mulL 2) 2), (h, .un (.addR c) 3)] St.init = .ok S ∧ deriveOp 4 3 S = .ok (r, S') ∧
      ∀ (ρ : Nat → ℝ) (i : Nat), Val S' ρ i r (1 + c) ∧ (∀ u, With S ρ i 3 u 4 (u + c)) ∧ ∀ p : ℝ, HasDerivAt (fun u => u + c) 1 p) ∧
    ∃ S r S', run fmt [(h, .leaf true), (h, .un (.mulL 2) 2), (h, .un (.pow 2) 3)] St.init = .ok S ∧ deriveOp 4 3 S = .ok (r, S') ∧
      ∀ (ρ : Nat → ℝ) (i : Nat), Val S' ρ i r 1 ∧ (∀ u, With S ρ i 3 u 4 (u ^ (2 : ℝ))) ∧ ∀ p : ℝ, HasDerivAt (fun u : ℝ => u ^ (2 : ℝ)) (2 * p) p := by
  have go : ∀ k : K1, (∀ h, callUn ⟨h, fmt⟩ k 3 (stB 2) = unary ⟨h, fmt⟩ k 3 (stB 2)) →
      ∃ S r S', run fmt [(h, .leaf true), (h, .un (.mulL 2) 2), (h, .un k 3)] St.init = .ok S ∧ deriveOp 4 3 S = .ok (r, S') ∧
        ∀ (ρ : Nat → ℝ) (i : Nat), Val S' ρ i r (k.fn 1) ∧ ∀ u, With S ρ i 3 u 4 (k.fn u) := by
    intro k hk
    have hb := built_stTY fmt k hk
    obtain ⟨r, S', e, _⟩ := c74_succeeds hb (y := 4) (by simp [stTY]) (op_t k)
    refine ⟨stTY k, r, S', run_stTY fmt h k (hk h), e, fun ρ i => ⟨?_, with_ty k ρ i⟩⟩
    exact (c74_value hb (op_y k) (op_t k) (by simp) (linked_ty k) e ρ i _).mpr (with_ty k ρ i 1)
  refine ⟨?_, ?_⟩
  · obtain ⟨S, r, S', h1, h2, h3⟩ := go (.addR c) (fun h => by simp [callUn, addR, constData, stB, hc])
    exact ⟨S, r, S', h1, h2, fun ρ i => ⟨(h3 ρ i).1, (h3 ρ i).2, fun p => (hasDerivAt_id p).add_const c⟩⟩
  · obtain ⟨S, r, S', h1, h2, h3⟩ := go (.pow 2) (fun h => by simp [callUn, Expr.pow, unop, constData, stB])
    refine ⟨S, r, S', h1, h2, fun ρ i => ⟨?_, (h3 ρ i).2, fun p => ?_⟩⟩
    · have := (h3 ρ i).1
      simpa [K1.fn] using this
    · have := hasDerivAt_pow 2 p
      simp only [Real.rpow_two]
      simpa using this

/-- When `t` is computed from `y`, and not the other way around, the answer is the value of `y` instead of 0. -/
theorem c74_above (hb : Built fmt S) (hy : Operation S y) (hbel : Below S y t) (hne : y ≠ t)
    (he : deriveOp y t S = .ok (r, S')) (ρ : Nat → ℝ) (i : Nat) :
    (∀ v, Val S' ρ i r v ↔ Val S ρ i y v) ∧ ∀ (c v : ℝ), With S ρ i t c y v ↔ Val S ρ i y v := by
  have ht := below_operation hbel hy
  have hw : ∀ (c v : ℝ), With S ρ i t c y v ↔ Val S ρ i y v := fun c v => with_val fun h => by
    have h1 := below_lt (built_ready hb).wf h
    have h2 := below_lt (built_ready hb).wf hbel
    omega
  exact ⟨fun v => (c74_value hb hy ht hne (below_linked hbel hy) he ρ i v).trans (hw 1 v), hw⟩

/-- The hypotheses of `c74_value`, `c74_right_iff` and `c74_linear` are met: `y = 3 * t` gives 3. -/
example (fmt : ℝ → List Char) : ∃ r S', deriveOp 4 3 (stTY (.mulL 3)) = .ok (r, S') ∧ Val S' (fun _ => 5) 0 r 3 := by
  have hb := built_stTY fmt (.mulL 3) (fun h => mulL_unary (by norm_num) (by norm_num) (by norm_num) rfl)
  obtain ⟨r, S', e, _⟩ := c74_succeeds hb (y := 4) (by simp [stTY]) (op_t _)
  refine ⟨r, S', e, ?_⟩
  have := (c74_value hb (op_y _) (op_t _) (by simp) (linked_ty _) e (fun _ => 5) 0 _).mpr (with_ty (.mulL 3) _ 0 1)
  simpa [K1.fn] using this

/-- … and of `c74_above`: `t` differentiated by `y`. -/
example (fmt : ℝ → List Char) : ∃ r S', deriveOp 3 4 (stTY (.mulL 3)) = .ok (r, S') ∧ Val S' (fun _ => 5) 0 r 10 := by
  have hb := built_stTY fmt (.mulL 3) (fun h => mulL_unary (by norm_num) (by norm_num) (by norm_num) rfl)
  obtain ⟨r, S', e, _⟩ := c74_succeeds hb (y := 3) (by simp [stTY]) (op_y _)
  refine ⟨r, S', e, ?_⟩
  have h1 : Below (stTY (.mulL 3)) 3 4 := .single ⟨_, rfl, by simp [Node.args]⟩
  rw [(c74_above hb (op_t _) h1 (by simp) e (fun _ => 5) 0).1]
  have := Val.un (S := stTY (.mulL 3)) (ρ := fun _ => 5) (i := 0) (n := 3) (k := .mulL 2) (a := 2) rfl (.leaf (tr := true) rfl)
  simp only [K1.fn] at this
  norm_num at this
  exact this

/-- … and of `c74_apart`: the variable differentiated by `t`. -/
example (fmt : ℝ → List Char) : ∃ r, deriveOp 2 3 (stTY (.mulL 3)) = .ok (r, stTY (.mulL 3)) ∧ Val (stTY (.mulL 3)) (fun _ => 5) 0 r 0 := by
  have hb := built_stTY fmt (.mulL 3) (fun h => mulL_unary (by norm_num) (by norm_num) (by norm_num) rfl)
  refine (c74_apart hb (op_t _) (by simp) ?_ _ 0).1
  rintro ⟨⟨a, nd, h1, h2⟩, _⟩
  simp [stTY] at h1
  rw [← h1] at h2; cases h2

end Verif.Props
