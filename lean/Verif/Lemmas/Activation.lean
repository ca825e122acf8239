import Verif.Model.Activation
import Verif.Lemmas.ExprCalls
/-!
# Lemmas on the construction of activation functions
-/
namespace Verif.Expr
open Spec
open scoped Classical
variable {C : Prop} {env : Env} {S S' : St}

/-- When no names clash, the node returned by `unary` is the one asked for. -/
theorem unary_node {k : K1} {a n : Nat} (I : Inv C env.fmt S) (h : unary env k a S = .ok (n, S')) (hc : NoClash env.fmt S') :
    S'.nodes[n]? = some (.un k a) ∧ Ext S S' := by
  unfold unary at h
  cases hh : (audience env S a (k.label env.fmt)).head? with
  | some p =>
    rw [hh] at h
    obtain ⟨nd, h1, h2, h3⟩ := mem_audience (List.mem_of_mem_head? (by rw [hh]; rfl))
    cases h
    refine ⟨?_, ⟨[], by simp⟩, fun _ h => List.mem_cons_of_mem _ h, fun _ h => h⟩
    cases nd with
    | leaf => cases h3
    | const => cases h3
    | un k' a' =>
      simp only [Node.label, Option.some.injEq] at h3
      simp only [Node.args, List.mem_singleton] at h2
      have := hc.un k' (List.mem_cons_of_mem _ (I.ask1 n k' a' h1)) k List.mem_cons_self h3
      subst this; subst h2
      exact h1
    | bin k' a' b' =>
      simp only [Node.label, Option.some.injEq] at h3
      exact absurd h3.symm (hc.mixed k List.mem_cons_self k' (I.ask2 n k' a' b' h1))
  | none =>
    rw [hh] at h
    cases h
    exact ⟨by simp, ⟨[_], rfl⟩, fun _ h => List.mem_cons_of_mem _ h, fun _ h => h⟩

theorem binary_node {k : K2} {a b n : Nat} (I : Inv C env.fmt S) (hk : k.unordered = false) (h : binary env k a b S = .ok (n, S'))
    (hc : NoClash env.fmt S') : S'.nodes[n]? = some (.bin k a b) ∧ Ext S S' := by
  unfold binary at h
  cases hh : (audience env S a k.label).find? (argsMatch S k.unordered a b) with
  | some p =>
    rw [hh] at h
    obtain ⟨nd, h1, h2, h3⟩ := mem_audience (List.mem_of_find?_eq_some hh)
    have hm := List.find?_some hh
    cases h
    refine ⟨?_, ⟨[], by simp⟩, fun _ h => h, fun _ h => List.mem_cons_of_mem _ h⟩
    cases nd with
    | leaf => cases h3
    | const => cases h3
    | un k' a' =>
      simp only [argsMatch, h1, Node.args] at hm
      simp at hm
    | bin k' a' b' =>
      simp only [Node.label, Option.some.injEq] at h3
      have := hc.bin k' (List.mem_cons_of_mem _ (I.ask2 n k' a' b' h1)) k List.mem_cons_self h3
      subst this
      simp only [argsMatch, h1, Node.args, hk, Bool.false_and, Bool.or_false, decide_eq_true_eq, List.cons.injEq, and_true] at hm
      obtain ⟨rfl, rfl⟩ := hm
      exact h1
  | none =>
    rw [hh] at h
    cases h
    exact ⟨by simp, ⟨[_], rfl⟩, fun _ h => h, fun _ h => List.mem_cons_of_mem _ h⟩

theorem smooth_val {ρ : Nat → ℝ} {i n : Nat} (h : Smooth S ρ i n) : ∃ v, Val S ρ i n v := by
  induction h with
  | leaf h => exact ⟨_, .leaf h⟩
  | const h h' => obtain ⟨v, hv⟩ := h'; exact ⟨v, .const h hv⟩
  | un h _ _ _ ih => obtain ⟨v, hv⟩ := ih; exact ⟨_, .un h hv⟩
  | bin h _ _ _ _ _ ih1 ih2 =>
    obtain ⟨v, hv⟩ := ih1
    obtain ⟨w, hw⟩ := ih2
    exact ⟨_, .bin h hv hw⟩

theorem mkConst_smooth {d : List ℝ} {n : Nat} (h : mkConst d S = .ok (n, S')) (ρ : Nat → ℝ) (i : Nat) (hv : ∃ v, constAt d i = some v) :
    Smooth S' ρ i n := by
  cases h
  exact .const (by simp) hv

theorem map_smooth {a n : Nat} {d : List ℝ} {ρ : Nat → ℝ} {i : Nat} {f : ℝ → ℝ} (hd : constData S a = some d)
    (h : mkConst (d.map f) S = .ok (n, S')) (hs : Smooth S ρ i a) : Smooth S' ρ i n := by
  obtain ⟨u, hu⟩ := smooth_val hs
  exact mkConst_smooth h ρ i ⟨_, constAt_map f (val_const hd hu)⟩

theorem unary_smooth {k : K1} {a n : Nat} (I : Inv C env.fmt S) (h : unary env k a S = .ok (n, S')) (hc : NoClash env.fmt S')
    {ρ : Nat → ℝ} {i : Nat} {u : ℝ} (hs : Smooth S ρ i a) (hu : Val S ρ i a u) (hk : SmoothAt1 k u) : Smooth S' ρ i n := by
  obtain ⟨h1, e⟩ := unary_node I h hc
  exact .un h1 (hs.mono e) (hu.mono e) hk

theorem unop_smooth {k : K1} {a n : Nat} (I : Inv C env.fmt S) (h : unop env k a S = .ok (n, S')) (hc : NoClash env.fmt S')
    {ρ : Nat → ℝ} {i : Nat} {u : ℝ} (hs : Smooth S ρ i a) (hu : Val S ρ i a u) (hk : SmoothAt1 k u) : Smooth S' ρ i n := by
  unfold unop at h
  cases hd : constData S a with
  | some d => rw [hd] at h; exact map_smooth hd h hs
  | none => rw [hd] at h; exact unary_smooth I h hc hs hu hk

theorem neg_smooth {a n : Nat} (I : Inv C env.fmt S) (h : neg env a S = .ok (n, S')) (hc : NoClash env.fmt S')
    {ρ : Nat → ℝ} {i : Nat} (hs : Smooth S ρ i a) : Smooth S' ρ i n := by
  obtain ⟨u, hu⟩ := smooth_val hs
  unfold neg at h
  split at h
  · rename_i d hd
    exact map_smooth (by unfold constData; rw [hd]) h hs
  · rename_i c hd
    cases h
    cases hs with
    | leaf g => rw [hd] at g; cases g
    | const g _ => rw [hd] at g; cases g
    | un g h1 _ _ => rw [hd] at g; cases g; exact h1
    | bin g _ _ _ _ _ => rw [hd] at g; cases g
  · exact unary_smooth I h hc hs hu trivial

theorem addL_smooth {c : ℝ} {b n : Nat} (I : Inv C env.fmt S) (h : addL env c b S = .ok (n, S')) (hc : NoClash env.fmt S')
    {ρ : Nat → ℝ} {i : Nat} (hs : Smooth S ρ i b) : Smooth S' ρ i n := by
  obtain ⟨u, hu⟩ := smooth_val hs
  unfold addL at h
  by_cases h0 : c = 0
  · rw [if_pos h0] at h; cases h; exact hs
  · rw [if_neg h0] at h
    cases hd : constData S b with
    | some d =>
      rw [hd] at h
      simp only at h
      by_cases h1 : d = [0]
      · rw [if_pos h1] at h; exact mkConst_smooth h ρ i ⟨c, constAt_single c i⟩
      · rw [if_neg h1] at h; exact map_smooth hd h hs
    | none => rw [hd] at h; exact unary_smooth I h hc hs hu trivial

theorem addR_smooth {c : ℝ} {a n : Nat} (I : Inv C env.fmt S) (h : addR env a c S = .ok (n, S')) (hc : NoClash env.fmt S')
    {ρ : Nat → ℝ} {i : Nat} (hs : Smooth S ρ i a) : Smooth S' ρ i n := by
  obtain ⟨u, hu⟩ := smooth_val hs
  unfold addR at h
  cases hd : constData S a with
  | some d =>
    rw [hd] at h
    simp only at h
    by_cases h1 : d = [0]
    · rw [if_pos h1] at h; exact mkConst_smooth h ρ i ⟨c, constAt_single c i⟩
    · rw [if_neg h1] at h; exact map_smooth hd h hs
  | none =>
    rw [hd] at h
    simp only at h
    by_cases h0 : c = 0
    · rw [if_pos h0] at h; cases h; exact hs
    · rw [if_neg h0] at h; exact unary_smooth I h hc hs hu trivial

theorem subR_smooth {c : ℝ} {a n : Nat} (I : Inv C env.fmt S) (h : subR env a c S = .ok (n, S')) (hc : NoClash env.fmt S')
    {ρ : Nat → ℝ} {i : Nat} (hs : Smooth S ρ i a) : Smooth S' ρ i n := by
  obtain ⟨u, hu⟩ := smooth_val hs
  unfold subR at h
  cases hd : constData S a with
  | some d =>
    rw [hd] at h
    simp only at h
    by_cases h1 : d = [0]
    · rw [if_pos h1] at h; exact mkConst_smooth h ρ i ⟨-c, constAt_single (-c) i⟩
    · rw [if_neg h1] at h; exact map_smooth hd h hs
  | none =>
    rw [hd] at h
    simp only at h
    by_cases h0 : c = 0
    · rw [if_pos h0] at h; cases h; exact hs
    · rw [if_neg h0] at h; exact unary_smooth I h hc hs hu trivial

theorem mulL_smooth {c : ℝ} {b n : Nat} (I : Inv C env.fmt S) (h : mulL env c b S = .ok (n, S')) (hc : NoClash env.fmt S')
    {ρ : Nat → ℝ} {i : Nat} (hs : Smooth S ρ i b) : Smooth S' ρ i n := by
  obtain ⟨u, hu⟩ := smooth_val hs
  unfold mulL at h
  cases hd : constData S b with
  | some d =>
    rw [hd] at h
    simp only at h
    split at h
    · exact mkConst_smooth h ρ i ⟨0, constAt_single 0 i⟩
    · split at h
      · exact mkConst_smooth h ρ i ⟨c, constAt_single c i⟩
      · exact map_smooth hd h hs
  | none =>
    rw [hd] at h
    simp only at h
    split at h
    · exact mkConst_smooth h ρ i ⟨0, constAt_single 0 i⟩
    · split at h
      · cases h; exact hs
      · split at h
        · exact neg_smooth I h hc hs
        · exact unary_smooth I h hc hs hu trivial

theorem divL_smooth {c : ℝ} {b n : Nat} (I : Inv C env.fmt S) (h : divL env c b S = .ok (n, S')) (hc : NoClash env.fmt S')
    {ρ : Nat → ℝ} {i : Nat} {u : ℝ} (hs : Smooth S ρ i b) (hu : Val S ρ i b u) (h0 : u ≠ 0) : Smooth S' ρ i n := by
  unfold divL at h
  cases hd : constData S b with
  | some d =>
    rw [hd] at h
    simp only at h
    split at h
    · cases h
    · split at h
      · exact mkConst_smooth h ρ i ⟨c, constAt_single c i⟩
      · exact map_smooth hd h hs
  | none =>
    rw [hd] at h
    simp only at h
    split at h
    · exact mkConst_smooth h ρ i ⟨0, constAt_single 0 i⟩
    · exact unary_smooth I h hc hs hu h0

theorem divR_smooth {c : ℝ} {a n : Nat} (I : Inv C env.fmt S) (h : divR env a c S = .ok (n, S')) (hc : NoClash env.fmt S')
    {ρ : Nat → ℝ} {i : Nat} (hs : Smooth S ρ i a) : Smooth S' ρ i n := by
  obtain ⟨u, hu⟩ := smooth_val hs
  unfold divR at h
  cases hd : constData S a with
  | some d =>
    rw [hd] at h
    simp only at h
    split at h
    · exact mkConst_smooth h ρ i ⟨0, constAt_single 0 i⟩
    · exact map_smooth hd h hs
  | none =>
    rw [hd] at h
    simp only at h
    split at h
    · cases h
    · split at h
      · cases h; exact hs
      · exact unary_smooth I h hc hs hu trivial

theorem div_smooth {a b n : Nat} (I : Inv C env.fmt S) (h : div env a b S = .ok (n, S')) (hc : NoClash env.fmt S')
    {ρ : Nat → ℝ} {i : Nat} {w : ℝ} (ha : Smooth S ρ i a) (hb : Smooth S ρ i b) (hw : Val S ρ i b w) (h0 : w ≠ 0) : Smooth S' ρ i n := by
  obtain ⟨u, hu⟩ := smooth_val ha
  have e : div env a b S = if a = b then mkConst [1] S else pick (fun x => if x = 0 then mkConst [0] S else divL env x b S)
      (fun y => if y = 0 then .throw .logicError else divR env a y S) (binary env .div a b S) (constData S a) (constData S b) := rfl
  rw [e] at h
  by_cases hab : a = b
  · rw [if_pos hab] at h; exact mkConst_smooth h ρ i ⟨1, constAt_single 1 i⟩
  · rw [if_neg hab] at h
    rcases const_cases S a b with ⟨x, hx⟩ | ⟨hn, y, hy⟩ | ⟨hn, hm⟩
    · rw [hx, pick_left] at h
      by_cases hx0 : x = 0
      · rw [if_pos hx0] at h; exact mkConst_smooth h ρ i ⟨0, constAt_single 0 i⟩
      · rw [if_neg hx0] at h; exact divL_smooth I h hc hb hw h0
    · rw [hy, pick_right _ _ _ hn] at h
      by_cases hy0 : y = 0
      · rw [if_pos hy0] at h; cases h
      · rw [if_neg hy0] at h; exact divR_smooth I h hc ha
    · rw [pick_none _ _ _ hn hm] at h
      obtain ⟨h1, e⟩ := binary_node I rfl h hc
      exact .bin h1 (ha.mono e) (hb.mono e) (hu.mono e) (hw.mono e) h0

end Verif.Expr
