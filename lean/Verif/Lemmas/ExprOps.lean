import Verif.Lemmas.Expr
/-!
# Every operator builds a node with the right value
-/
namespace Verif.Expr
open Spec
open scoped Classical

variable {C : Prop} {env : Env} {S : St}

theorem unop_builds (I : Inv C env.fmt S) (k : K1) (a : Nat) (ha : a < S.nodes.length)
    (hd : ∀ c, k = .divR c → c ≠ 0) (hp : ∀ c, k = .pow c → c ≠ 0) (hnc : C ∨ NotCond1 k) :
    Builds C env.fmt S (unop env k a S) (fun ρ i v => ∃ u, Val S ρ i a u ∧ v = k.fn u) (NS S a) := by
  unfold unop
  cases h : constData S a with
  | some d => exact map_const_builds I h k.fn
  | none => exact (unary_builds I k a ha (Or.inr (ns_of_const h)) hd hp hnc).weaken (fun _ _ _ h => h) (fun _ => trivial)

theorem identity_builds (I : Inv C env.fmt S) (a : Nat) (ha : a < S.nodes.length) :
    Builds C env.fmt S (identity env a S) (fun ρ i v => Val S ρ i a v) True :=
  (unary_builds I .ident a ha (Or.inl rfl) (by simp) (by simp) (Or.inr (by simp [NotCond1]))).weaken (fun ρ i v h => ⟨v, h, rfl⟩) id

theorem neg_builds (I : Inv C env.fmt S) (a : Nat) (ha : a < S.nodes.length) :
    Builds C env.fmt S (neg env a S) (fun ρ i v => ∃ u, Val S ρ i a u ∧ v = -u) (NS S a) := by
  unfold neg
  split
  · rename_i d h
    exact map_const_builds I (by unfold constData; rw [h]) (fun x => -x)
  · rename_i c h
    have hc : c < S.nodes.length := Nat.lt_trans (I.wf _ _ h c (by simp [Node.args])) ha
    refine (ret_builds I c hc).weaken ?_ ?_
    · rintro ρ i v ⟨u, hu, rfl⟩
      cases hu with
      | leaf g => rw [h] at g; cases g
      | const g e' => rw [h] at g; cases g
      | un g k => rw [h] at g; cases g; simpa [K1.fn] using k
      | bin g k l => rw [h] at g; cases g
    · intro _
      rcases I.nsu a _ c h with h' | h'
      · cases h'
      · exact h'
  · rename_i h1 h2
    have : constData S a = none := by
      unfold constData
      split
      · rename_i d h; exact absurd h (h1 d)
      · rfl
    exact (unary_builds I .neg a ha (Or.inr (ns_of_const this)) (by simp) (by simp) (Or.inr (by simp [NotCond1]))).weaken (fun _ _ _ h => h) (fun _ => trivial)

theorem pow_builds (I : Inv C env.fmt S) (a : Nat) (s : ℝ) (ha : a < S.nodes.length) :
    Builds C env.fmt S (pow env a s S) (fun ρ i v => ∃ u, Val S ρ i a u ∧ v = u ^ s) (NS S a ∧ s ≠ 0) := by
  unfold pow
  by_cases h0 : s = 0
  · rw [if_pos h0]
    refine scalar_builds I 1 ?_ (by simp [h0])
    rintro ρ i v ⟨u, _, rfl⟩; rw [h0, Real.rpow_zero]
  · rw [if_neg h0]
    by_cases h1 : s = 1
    · rw [if_pos h1]
      refine (ret_builds I a ha).weaken ?_ And.left
      rintro ρ i v ⟨u, hu, rfl⟩; rw [h1, Real.rpow_one]; exact hu
    · rw [if_neg h1]
      exact (unop_builds I (.pow s) a ha (by simp) (by rintro c ⟨⟩; exact h0) (Or.inr (by simp [NotCond1]))).weaken (fun _ _ _ h => h) And.left

theorem clip_builds (I : Inv C env.fmt S) (a : Nat) (lo hi : ℝ) (ha : a < S.nodes.length) :
    Builds C env.fmt S (clip env a lo hi S) (fun ρ i v => ∃ u, Val S ρ i a u ∧ v = max (min lo hi) (min (max lo hi) u)) (NS S a) := by
  unfold clip
  by_cases h : lo > hi
  · rw [if_pos h]
    refine (unop_builds I (.clip hi lo) a ha (by simp) (by simp) (Or.inr (by simp [NotCond1]))).weaken ?_ id
    rintro ρ i v ⟨u, hu, rfl⟩
    refine ⟨u, hu, ?_⟩
    simp only [K1.fn, clamp]
    rw [min_eq_right h.le, max_eq_left h.le]
    split
    · rename_i h1; rw [max_eq_left]; exact (min_le_right _ _).trans h1.le
    · rename_i h1
      split
      · rename_i h2; rw [min_eq_left h2.le, max_eq_right h.le]
      · rename_i h2; rw [min_eq_right (not_lt.mp h2), max_eq_right (not_lt.mp h1)]
  · rw [if_neg h]
    have h : lo ≤ hi := not_lt.mp h
    refine (unop_builds I (.clip lo hi) a ha (by simp) (by simp) (Or.inr (by simp [NotCond1]))).weaken ?_ id
    rintro ρ i v ⟨u, hu, rfl⟩
    refine ⟨u, hu, ?_⟩
    simp only [K1.fn, clamp]
    rw [min_eq_left h, max_eq_right h]
    split
    · rename_i h1; rw [max_eq_left]; exact (min_le_right _ _).trans h1.le
    · rename_i h1
      split
      · rename_i h2; rw [min_eq_left h2.le, max_eq_right h]
      · rename_i h2; rw [min_eq_right (not_lt.mp h2), max_eq_right (not_lt.mp h1)]

theorem ns_ne {a : Nat} {d : List ℝ} (h : constData S a = some d) {x : ℝ} (hd : d = [x]) : ¬ NS S a :=
  fun hn => hn x (by rw [h, hd])

theorem addL_builds (I : Inv C env.fmt S) (c : ℝ) (b : Nat) (hb : b < S.nodes.length) :
    Builds C env.fmt S (addL env c b S) (fun ρ i v => ∃ u, Val S ρ i b u ∧ v = c + u) (NS S b) := by
  unfold addL
  by_cases h0 : c = 0
  · rw [if_pos h0]
    refine (ret_builds I b hb).weaken ?_ id
    rintro ρ i v ⟨u, hu, rfl⟩; rw [h0, zero_add]; exact hu
  · rw [if_neg h0]
    cases h : constData S b with
    | some d =>
      by_cases h1 : d = [0]
      · simp only [if_pos h1]
        refine scalar_builds I c ?_ (ns_ne h h1)
        rintro ρ i v ⟨u, hu, rfl⟩
        have := val_const h hu; rw [h1] at this; rw [constAt_one this, add_zero]
      · simp only [if_neg h1]; exact map_const_builds I h _
    | none => exact (unary_builds I (.addL c) b hb (Or.inr (ns_of_const h)) (by simp) (by simp) (Or.inr (by simp [NotCond1]))).weaken (fun _ _ _ h => h) (fun _ => trivial)

theorem addR_builds (I : Inv C env.fmt S) (a : Nat) (c : ℝ) (ha : a < S.nodes.length) :
    Builds C env.fmt S (addR env a c S) (fun ρ i v => ∃ u, Val S ρ i a u ∧ v = u + c) (NS S a) := by
  unfold addR
  cases h : constData S a with
  | some d =>
    by_cases h1 : d = [0]
    · simp only [if_pos h1]
      refine scalar_builds I c ?_ (ns_ne h h1)
      rintro ρ i v ⟨u, hu, rfl⟩
      have := val_const h hu; rw [h1] at this; rw [constAt_one this, zero_add]
    · simp only [if_neg h1]; exact map_const_builds I h _
  | none =>
    by_cases h0 : c = 0
    · simp only [if_pos h0]
      refine (ret_builds I a ha).weaken ?_ id
      rintro ρ i v ⟨u, hu, rfl⟩; rw [h0, add_zero]; exact hu
    · simp only [if_neg h0]
      exact (unary_builds I (.addR c) a ha (Or.inr (ns_of_const h)) (by simp) (by simp) (Or.inr (by simp [NotCond1]))).weaken (fun _ _ _ h => h) (fun _ => trivial)

theorem subL_builds (I : Inv C env.fmt S) (c : ℝ) (b : Nat) (hb : b < S.nodes.length) :
    Builds C env.fmt S (subL env c b S) (fun ρ i v => ∃ u, Val S ρ i b u ∧ v = c - u) (NS S b) := by
  unfold subL
  by_cases h0 : c = 0
  · rw [if_pos h0]
    refine (neg_builds I b hb).weaken ?_ id
    rintro ρ i v ⟨u, hu, rfl⟩; exact ⟨u, hu, by rw [h0, zero_sub]⟩
  · rw [if_neg h0]
    cases h : constData S b with
    | some d =>
      by_cases h1 : d = [0]
      · simp only [if_pos h1]
        refine scalar_builds I c ?_ (ns_ne h h1)
        rintro ρ i v ⟨u, hu, rfl⟩
        have := val_const h hu; rw [h1] at this; rw [constAt_one this, sub_zero]
      · simp only [if_neg h1]; exact map_const_builds I h _
    | none => exact (unary_builds I (.subL c) b hb (Or.inr (ns_of_const h)) (by simp) (by simp) (Or.inr (by simp [NotCond1]))).weaken (fun _ _ _ h => h) (fun _ => trivial)

theorem subR_builds (I : Inv C env.fmt S) (a : Nat) (c : ℝ) (ha : a < S.nodes.length) :
    Builds C env.fmt S (subR env a c S) (fun ρ i v => ∃ u, Val S ρ i a u ∧ v = u - c) (NS S a) := by
  unfold subR
  cases h : constData S a with
  | some d =>
    by_cases h1 : d = [0]
    · simp only [if_pos h1]
      refine scalar_builds I (-c) ?_ (ns_ne h h1)
      rintro ρ i v ⟨u, hu, rfl⟩
      have := val_const h hu; rw [h1] at this; rw [constAt_one this, zero_sub]
    · simp only [if_neg h1]; exact map_const_builds I h _
  | none =>
    by_cases h0 : c = 0
    · simp only [if_pos h0]
      refine (ret_builds I a ha).weaken ?_ id
      rintro ρ i v ⟨u, hu, rfl⟩; rw [h0, sub_zero]; exact hu
    · simp only [if_neg h0]
      exact (unary_builds I (.subR c) a ha (Or.inr (ns_of_const h)) (by simp) (by simp) (Or.inr (by simp [NotCond1]))).weaken (fun _ _ _ h => h) (fun _ => trivial)

theorem mulL_builds (I : Inv C env.fmt S) (c : ℝ) (b : Nat) (hb : b < S.nodes.length) :
    Builds C env.fmt S (mulL env c b S) (fun ρ i v => ∃ u, Val S ρ i b u ∧ v = c * u) (NS S b ∧ c ≠ 0) := by
  unfold mulL
  cases h : constData S b with
  | some d =>
    by_cases h1 : d = [0] ∨ 0 = c
    · simp only [if_pos h1]
      refine scalar_builds I 0 ?_ ?_
      · rintro ρ i v ⟨u, hu, rfl⟩
        rcases h1 with h1 | h1
        · have := val_const h hu; rw [h1] at this; rw [constAt_one this, mul_zero]
        · rw [← h1, zero_mul]
      · rintro ⟨hn, hc⟩
        rcases h1 with h1 | h1
        · exact ns_ne h h1 hn
        · exact hc h1.symm
    · simp only [if_neg h1]
      by_cases h2 : d = [1]
      · simp only [if_pos h2]
        refine scalar_builds I c ?_ (fun hq => ns_ne h h2 hq.1)
        rintro ρ i v ⟨u, hu, rfl⟩
        have := val_const h hu; rw [h2] at this; rw [constAt_one this, mul_one]
      · simp only [if_neg h2]; exact (map_const_builds I h _).weaken (fun _ _ _ h => h) And.left
  | none =>
    by_cases h0 : 0 = c
    · simp only [if_pos h0]
      refine scalar_builds I 0 ?_ (fun hq => hq.2 h0.symm)
      rintro ρ i v ⟨u, hu, rfl⟩; rw [← h0, zero_mul]
    · simp only [if_neg h0]
      by_cases h1 : 1 = c
      · simp only [if_pos h1]
        refine (ret_builds I b hb).weaken ?_ And.left
        rintro ρ i v ⟨u, hu, rfl⟩; rw [← h1, one_mul]; exact hu
      · simp only [if_neg h1]
        by_cases h2 : -1 = c
        · simp only [if_pos h2]
          refine (neg_builds I b hb).weaken ?_ And.left
          rintro ρ i v ⟨u, hu, rfl⟩; exact ⟨u, hu, by rw [← h2]; ring⟩
        · simp only [if_neg h2]
          exact (unary_builds I (.mulL c) b hb (Or.inr (ns_of_const h)) (by simp) (by simp) (Or.inr (by simp [NotCond1]))).weaken (fun _ _ _ h => h) (fun _ => trivial)

theorem mulR_builds (I : Inv C env.fmt S) (a : Nat) (c : ℝ) (ha : a < S.nodes.length) :
    Builds C env.fmt S (mulR env a c S) (fun ρ i v => ∃ u, Val S ρ i a u ∧ v = u * c) (NS S a ∧ c ≠ 0) := by
  unfold mulR
  cases h : constData S a with
  | some d =>
    by_cases h1 : d = [0] ∨ 0 = c
    · simp only [if_pos h1]
      refine scalar_builds I 0 ?_ ?_
      · rintro ρ i v ⟨u, hu, rfl⟩
        rcases h1 with h1 | h1
        · have := val_const h hu; rw [h1] at this; rw [constAt_one this, zero_mul]
        · rw [← h1, mul_zero]
      · rintro ⟨hn, hc⟩
        rcases h1 with h1 | h1
        · exact ns_ne h h1 hn
        · exact hc h1.symm
    · simp only [if_neg h1]
      by_cases h2 : d = [1]
      · simp only [if_pos h2]
        refine scalar_builds I c ?_ (fun hq => ns_ne h h2 hq.1)
        rintro ρ i v ⟨u, hu, rfl⟩
        have := val_const h hu; rw [h2] at this; rw [constAt_one this, one_mul]
      · simp only [if_neg h2]; exact (map_const_builds I h _).weaken (fun _ _ _ h => h) And.left
  | none =>
    by_cases h0 : 0 = c
    · simp only [if_pos h0]
      refine scalar_builds I 0 ?_ (fun hq => hq.2 h0.symm)
      rintro ρ i v ⟨u, hu, rfl⟩; rw [← h0, mul_zero]
    · simp only [if_neg h0]
      by_cases h1 : 1 = c
      · simp only [if_pos h1]
        refine (ret_builds I a ha).weaken ?_ And.left
        rintro ρ i v ⟨u, hu, rfl⟩; rw [← h1, mul_one]; exact hu
      · simp only [if_neg h1]
        by_cases h2 : -1 = c
        · simp only [if_pos h2]
          refine (neg_builds I a ha).weaken ?_ And.left
          rintro ρ i v ⟨u, hu, rfl⟩; exact ⟨u, hu, by rw [← h2]; ring⟩
        · simp only [if_neg h2]
          exact (unary_builds I (.mulR c) a ha (Or.inr (ns_of_const h)) (by simp) (by simp) (Or.inr (by simp [NotCond1]))).weaken (fun _ _ _ h => h) (fun _ => trivial)

theorem divL_builds (I : Inv C env.fmt S) (c : ℝ) (b : Nat) (hb : b < S.nodes.length) (h0 : constData S b ≠ some [0]) :
    Builds C env.fmt S (divL env c b S) (fun ρ i v => ∃ u, Val S ρ i b u ∧ v = c / u) (NS S b ∧ c ≠ 0) := by
  unfold divL
  cases h : constData S b with
  | some d =>
    have h1 : d ≠ [0] := by rintro rfl; exact h0 h
    simp only [if_neg h1]
    by_cases h2 : d = [1]
    · simp only [if_pos h2]
      refine scalar_builds I c ?_ (fun hq => ns_ne h h2 hq.1)
      rintro ρ i v ⟨u, hu, rfl⟩
      have := val_const h hu; rw [h2] at this; rw [constAt_one this, div_one]
    · simp only [if_neg h2]; exact (map_const_builds I h _).weaken (fun _ _ _ h => h) And.left
  | none =>
    by_cases hc : c = 0
    · simp only [if_pos hc]
      refine scalar_builds I 0 ?_ (fun hq => hq.2 hc)
      rintro ρ i v ⟨u, hu, rfl⟩; rw [hc, zero_div]
    · simp only [if_neg hc]
      exact (unary_builds I (.divL c) b hb (Or.inr (ns_of_const h)) (by simp) (by simp) (Or.inr (by simp [NotCond1]))).weaken (fun _ _ _ h => h) (fun _ => trivial)

theorem divR_builds (I : Inv C env.fmt S) (a : Nat) (c : ℝ) (ha : a < S.nodes.length) (hc : c ≠ 0) :
    Builds C env.fmt S (divR env a c S) (fun ρ i v => ∃ u, Val S ρ i a u ∧ v = u / c) (NS S a) := by
  unfold divR
  cases h : constData S a with
  | some d =>
    by_cases h1 : d = [0]
    · simp only [if_pos h1]
      refine scalar_builds I 0 ?_ (ns_ne h h1)
      rintro ρ i v ⟨u, hu, rfl⟩
      have := val_const h hu; rw [h1] at this; rw [constAt_one this, zero_div]
    · simp only [if_neg h1]; exact map_const_builds I h _
  | none =>
    simp only [if_neg hc]
    by_cases h0 : c = 1
    · simp only [if_pos h0]
      refine (ret_builds I a ha).weaken ?_ id
      rintro ρ i v ⟨u, hu, rfl⟩; rw [h0, div_one]; exact hu
    · simp only [if_neg h0]
      exact (unary_builds I (.divR c) a ha (Or.inr (ns_of_const h)) (by rintro _ ⟨⟩; exact hc) (by simp) (Or.inr (by simp [NotCond1]))).weaken (fun _ _ _ h => h) (fun _ => trivial)

/-- The three cases of the binary operators. -/
theorem const_cases (S : St) (a b : Nat) :
    (∃ x, constData S a = some [x]) ∨ (NS S a ∧ ∃ y, constData S b = some [y]) ∨ (NS S a ∧ NS S b) := by
  by_cases h : ∃ x, constData S a = some [x]
  · exact Or.inl h
  · have hn : NS S a := fun x hx => h ⟨x, hx⟩
    by_cases h' : ∃ y, constData S b = some [y]
    · exact Or.inr (Or.inl ⟨hn, h'⟩)
    · exact Or.inr (Or.inr ⟨hn, fun x hx => h' ⟨x, hx⟩⟩)

/-- How the binary operators look at their arguments. -/
def pick {α : Type} (f : ℝ → α) (g : ℝ → α) (h : α) (oa ob : Option (List ℝ)) : α :=
  match oa, ob with
  | some [x], _ => f x
  | _, some [y] => g y
  | _, _ => h

theorem pick_left {α : Type} (f g : ℝ → α) (h : α) (x : ℝ) (ob : Option (List ℝ)) : pick f g h (some [x]) ob = f x := rfl
theorem pick_right {α : Type} (f g : ℝ → α) (h : α) {oa : Option (List ℝ)} (hn : ∀ x, oa ≠ some [x]) (y : ℝ) :
    pick f g h oa (some [y]) = g y := by
  unfold pick
  split
  · rename_i x h; exact absurd rfl (hn _)
  · rename_i y' h; cases h; rfl
  · rename_i h1 h2; exact absurd rfl (h2 y)
theorem pick_none {α : Type} (f g : ℝ → α) (h : α) {oa ob : Option (List ℝ)} (hn : ∀ x, oa ≠ some [x]) (hm : ∀ x, ob ≠ some [x]) :
    pick f g h oa ob = h := by
  unfold pick
  split
  · rename_i x h; exact absurd rfl (hn _)
  · rename_i y' h; exact absurd rfl (hm y')
  · rfl

theorem val_scalar {a : Nat} {x u : ℝ} (h : constData S a = some [x]) {ρ : Nat → ℝ} {i : Nat} (hu : Val S ρ i a u) : u = x :=
  constAt_one (val_const h hu)

theorem add_builds (I : Inv C env.fmt S) (a b : Nat) (ha : a < S.nodes.length) (hb : b < S.nodes.length) :
    Builds C env.fmt S (add env a b S) (fun ρ i v => ∃ u w, Val S ρ i a u ∧ Val S ρ i b w ∧ v = u + w) (NS S a ∧ NS S b) := by
  have e : add env a b S = pick (fun x => if x = 0 then ret b S else addL env x b S)
      (fun y => if y = 0 then ret a S else addR env a y S) (binary env .add a b S) (constData S a) (constData S b) := rfl
  rw [e]
  rcases const_cases S a b with ⟨x, h⟩ | ⟨hn, y, h⟩ | ⟨hn, hm⟩
  · rw [h, pick_left]
    by_cases h0 : x = 0
    · rw [if_pos h0]
      refine (ret_builds I b hb).weaken ?_ And.right
      rintro ρ i v ⟨u, w, hu, hw, rfl⟩; rw [val_scalar h hu, h0, zero_add]; exact hw
    · rw [if_neg h0]
      refine (addL_builds I x b hb).weaken ?_ And.right
      rintro ρ i v ⟨u, w, hu, hw, rfl⟩; exact ⟨w, hw, by rw [val_scalar h hu]⟩
  · rw [h, pick_right _ _ _ hn]
    by_cases h0 : y = 0
    · rw [if_pos h0]
      refine (ret_builds I a ha).weaken ?_ And.left
      rintro ρ i v ⟨u, w, hu, hw, rfl⟩; rw [val_scalar h hw, h0, add_zero]; exact hu
    · rw [if_neg h0]
      refine (addR_builds I a y ha).weaken ?_ And.left
      rintro ρ i v ⟨u, w, hu, hw, rfl⟩; exact ⟨u, hu, by rw [val_scalar h hw]⟩
  · rw [pick_none _ _ _ hn hm]
    exact (binary_builds I .add a b ha hb hn hm (Or.inr (by simp [NotCond2]))).weaken (fun _ _ _ h => h) (fun _ => trivial)

theorem sub_builds (I : Inv C env.fmt S) (a b : Nat) (ha : a < S.nodes.length) (hb : b < S.nodes.length) :
    Builds C env.fmt S (sub env a b S) (fun ρ i v => ∃ u w, Val S ρ i a u ∧ Val S ρ i b w ∧ v = u - w) (NS S a ∧ NS S b ∧ a ≠ b) := by
  have e : sub env a b S = if a = b then mkConst [0] S else pick (fun x => if x = 0 then neg env b S else subL env x b S)
      (fun y => if y = 0 then ret a S else subR env a y S) (binary env .sub a b S) (constData S a) (constData S b) := rfl
  rw [e]
  by_cases hab : a = b
  · rw [if_pos hab]
    refine scalar_builds I 0 ?_ (fun h => h.2.2 hab)
    rintro ρ i v ⟨u, w, hu, hw, rfl⟩; subst hab; rw [hu.unique hw, sub_self]
  rw [if_neg hab]
  rcases const_cases S a b with ⟨x, h⟩ | ⟨hn, y, h⟩ | ⟨hn, hm⟩
  · rw [h, pick_left]
    by_cases h0 : x = 0
    · rw [if_pos h0]
      refine (neg_builds I b hb).weaken ?_ (fun h => h.2.1)
      rintro ρ i v ⟨u, w, hu, hw, rfl⟩; exact ⟨w, hw, by rw [val_scalar h hu, h0, zero_sub]⟩
    · rw [if_neg h0]
      refine (subL_builds I x b hb).weaken ?_ (fun h => h.2.1)
      rintro ρ i v ⟨u, w, hu, hw, rfl⟩; exact ⟨w, hw, by rw [val_scalar h hu]⟩
  · rw [h, pick_right _ _ _ hn]
    by_cases h0 : y = 0
    · rw [if_pos h0]
      refine (ret_builds I a ha).weaken ?_ And.left
      rintro ρ i v ⟨u, w, hu, hw, rfl⟩; rw [val_scalar h hw, h0, sub_zero]; exact hu
    · rw [if_neg h0]
      refine (subR_builds I a y ha).weaken ?_ And.left
      rintro ρ i v ⟨u, w, hu, hw, rfl⟩; exact ⟨u, hu, by rw [val_scalar h hw]⟩
  · rw [pick_none _ _ _ hn hm]
    exact (binary_builds I .sub a b ha hb hn hm (Or.inr (by simp [NotCond2]))).weaken (fun _ _ _ h => h) (fun _ => trivial)

theorem mul_builds (I : Inv C env.fmt S) (a b : Nat) (ha : a < S.nodes.length) (hb : b < S.nodes.length) :
    Builds C env.fmt S (mul env a b S) (fun ρ i v => ∃ u w, Val S ρ i a u ∧ Val S ρ i b w ∧ v = u * w) (NS S a ∧ NS S b) := by
  have e : mul env a b S = if a = b then pow env a 2 S else pick (fun x => if x = 0 then mkConst [0] S else mulL env x b S)
      (fun y => if y = 0 then mkConst [0] S else mulR env a y S) (binary env .mul a b S) (constData S a) (constData S b) := rfl
  rw [e]
  by_cases hab : a = b
  · rw [if_pos hab]
    refine (pow_builds I a 2 ha).weaken ?_ (fun h => ⟨h.1, by norm_num⟩)
    rintro ρ i v ⟨u, w, hu, hw, rfl⟩; subst hab
    refine ⟨u, hu, ?_⟩
    rw [hu.unique hw, Real.rpow_two, sq]
  rw [if_neg hab]
  rcases const_cases S a b with ⟨x, h⟩ | ⟨hn, y, h⟩ | ⟨hn, hm⟩
  · rw [h, pick_left]
    by_cases h0 : x = 0
    · rw [if_pos h0]
      refine scalar_builds I 0 ?_ (fun hq => hq.1 x h)
      rintro ρ i v ⟨u, w, hu, hw, rfl⟩; rw [val_scalar h hu, h0, zero_mul]
    · rw [if_neg h0]
      refine (mulL_builds I x b hb).weaken ?_ (fun h => ⟨h.2, h0⟩)
      rintro ρ i v ⟨u, w, hu, hw, rfl⟩; exact ⟨w, hw, by rw [val_scalar h hu]⟩
  · rw [h, pick_right _ _ _ hn]
    by_cases h0 : y = 0
    · rw [if_pos h0]
      refine scalar_builds I 0 ?_ (fun hq => hq.2 y h)
      rintro ρ i v ⟨u, w, hu, hw, rfl⟩; rw [val_scalar h hw, h0, mul_zero]
    · rw [if_neg h0]
      refine (mulR_builds I a y ha).weaken ?_ (fun h => ⟨h.1, h0⟩)
      rintro ρ i v ⟨u, w, hu, hw, rfl⟩; exact ⟨u, hu, by rw [val_scalar h hw]⟩
  · rw [pick_none _ _ _ hn hm]
    exact (binary_builds I .mul a b ha hb hn hm (Or.inr (by simp [NotCond2]))).weaken (fun _ _ _ h => h) (fun _ => trivial)

theorem div_builds (I : Inv C env.fmt S) (a b : Nat) (ha : a < S.nodes.length) (hb : b < S.nodes.length)
    (h0 : constData S b ≠ some [0]) :
    Builds C env.fmt S (div env a b S) (fun ρ i v => ∃ u w, Val S ρ i a u ∧ Val S ρ i b w ∧ w ≠ 0 ∧ v = u / w)
      (NS S a ∧ NS S b ∧ a ≠ b) := by
  have e : div env a b S = if a = b then mkConst [1] S else pick (fun x => if x = 0 then mkConst [0] S else divL env x b S)
      (fun y => if y = 0 then .throw .logicError else divR env a y S) (binary env .div a b S) (constData S a) (constData S b) := rfl
  rw [e]
  by_cases hab : a = b
  · rw [if_pos hab]
    refine scalar_builds I 1 ?_ (fun h => h.2.2 hab)
    rintro ρ i v ⟨u, w, hu, hw, hw0, rfl⟩; subst hab; rw [hu.unique hw, div_self hw0]
  rw [if_neg hab]
  rcases const_cases S a b with ⟨x, h⟩ | ⟨hn, y, h⟩ | ⟨hn, hm⟩
  · rw [h, pick_left]
    by_cases h1 : x = 0
    · rw [if_pos h1]
      refine scalar_builds I 0 ?_ (fun hq => hq.1 x h)
      rintro ρ i v ⟨u, w, hu, hw, _, rfl⟩; rw [val_scalar h hu, h1, zero_div]
    · rw [if_neg h1]
      refine (divL_builds I x b hb h0).weaken ?_ (fun h => ⟨h.2.1, h1⟩)
      rintro ρ i v ⟨u, w, hu, hw, _, rfl⟩; exact ⟨w, hw, by rw [val_scalar h hu]⟩
  · rw [h, pick_right _ _ _ hn]
    have h1 : y ≠ 0 := by rintro rfl; exact h0 h
    rw [if_neg h1]
    refine (divR_builds I a y ha h1).weaken ?_ And.left
    rintro ρ i v ⟨u, w, hu, hw, _, rfl⟩; exact ⟨u, hu, by rw [val_scalar h hw]⟩
  · rw [pick_none _ _ _ hn hm]
    refine (binary_builds I .div a b ha hb hn hm (Or.inr (by simp [NotCond2]))).weaken ?_ (fun _ => trivial)
    rintro ρ i v ⟨u, w, hu, hw, _, rfl⟩; exact ⟨u, w, hu, hw, rfl⟩

theorem cond_builds (I : Inv C env.fmt S) (name : List Char) (cmp : ℝ → ℝ → Bool) (a b : Nat) (ha : a < S.nodes.length)
    (hb : b < S.nodes.length) (hC : C) :
    Builds C env.fmt S (cond env name cmp a b S)
      (fun ρ i v => ∃ u w, Val S ρ i a u ∧ Val S ρ i b w ∧ v = if cmp u w = true then 1 else 0) (NS S a ∧ NS S b) := by
  have e : cond env name cmp a b S = pick (fun x => unop env (.condL name cmp x) b S)
      (fun y => unop env (.condR name cmp y) a S) (binary env (.cond name cmp) a b S) (constData S a) (constData S b) := rfl
  rw [e]
  rcases const_cases S a b with ⟨x, h⟩ | ⟨hn, y, h⟩ | ⟨hn, hm⟩
  · rw [h, pick_left]
    refine (unop_builds I (.condL name cmp x) b hb (by simp) (by simp) (Or.inl hC)).weaken ?_ And.right
    rintro ρ i v ⟨u, w, hu, hw, rfl⟩; exact ⟨w, hw, by rw [val_scalar h hu]; rfl⟩
  · rw [h, pick_right _ _ _ hn]
    refine (unop_builds I (.condR name cmp y) a ha (by simp) (by simp) (Or.inl hC)).weaken ?_ And.left
    rintro ρ i v ⟨u, w, hu, hw, rfl⟩; exact ⟨u, hu, by rw [val_scalar h hw]; rfl⟩
  · rw [pick_none _ _ _ hn hm]
    exact (binary_builds I (.cond name cmp) a b ha hb hn hm (Or.inl hC)).weaken (fun _ _ _ h => h) (fun _ => trivial)

/-- `abs` of a constant is the absolute value, of any other node the identity. -/
theorem abs_builds (I : Inv C env.fmt S) (a : Nat) (ha : a < S.nodes.length) :
    Builds C env.fmt S (abs env a S) (fun ρ i v => ∃ u, Val S ρ i a u ∧ v = if constData S a = none then u else |u|) (NS S a) := by
  unfold abs
  cases h : constData S a with
  | some d => exact map_const_builds I h _
  | none =>
    exact (unary_builds I .abs a ha (Or.inr (ns_of_const h)) (by simp) (by simp) (Or.inr (by simp [NotCond1]))).weaken (fun _ _ _ h => h) (fun _ => trivial)

end Verif.Expr
