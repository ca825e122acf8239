import Verif.Model.Norm
import Mathlib.Analysis.SpecialFunctions.Pow.Real
/-!
# C37: absolute value, clipping, norms

None of the four operators but `clip_val` has its documented meaning on all arguments, so the theorems named
`_partial` say on which arguments it has, and the others exhibit where not.
-/
namespace Verif.Spec

/-- The Euclidean norm. -/
noncomputable def norm2 (d : List ℝ) : ℝ := Real.sqrt ((d.map (fun x => x ^ 2)).sum)

/-- Scaled to norm `cap` if the norm exceeds `cap`. -/
noncomputable def clipNorm (cap : ℝ) (d : List ℝ) : List ℝ :=
  open scoped Classical in if norm2 d > cap then d.map (fun x => x * (cap / norm2 d)) else d

end Verif.Spec

namespace Verif.Props
open Verif.Norm Spec
open scoped Classical

theorem sumSq_eq (d : List ℝ) : sumSq d = (d.map (fun x => x ^ 2)).sum := by
  have : ∀ a : ℝ, d.foldl (fun acc x => acc + x * x) a = a + (d.map (fun x => x ^ 2)).sum := by
    induction d with
    | nil => simp
    | cons x d ih => intro a; rw [List.foldl_cons, ih, List.map_cons, List.sum_cons]; ring
  unfold sumSq; rw [this, zero_add]

theorem sumSq_nonneg (d : List ℝ) : 0 ≤ sumSq d := by
  rw [sumSq_eq]; apply List.sum_nonneg; simp only [List.mem_map]; rintro _ ⟨x, _, rfl⟩; positivity

theorem norm2_sq (d : List ℝ) : norm2 d ^ 2 = sumSq d := by
  unfold norm2; rw [← sumSq_eq, Real.sq_sqrt (sumSq_nonneg d)]

theorem norm2_nonneg (d : List ℝ) : 0 ≤ norm2 d := Real.sqrt_nonneg _

theorem norm2_scale (d : List ℝ) (c : ℝ) (hc : 0 ≤ c) : norm2 (d.map (fun x => x * c)) = norm2 d * c := by
  unfold norm2
  have : ((d.map (fun x => x * c)).map (fun x => x ^ 2)).sum = (d.map (fun x => x ^ 2)).sum * c ^ 2 := by
    induction d with
    | nil => simp
    | cons x d ih => simp only [List.map_cons, List.sum_cons, ih]; ring
  rw [this, Real.sqrt_mul (by rw [← sumSq_eq]; exact sumSq_nonneg d), Real.sqrt_sq hc]

/-! ### Clamping -/

/-- `clip_val` clamps between the smaller and the larger bound, for constants and nodes alike. -/
theorem c37_clip (lo hi : ℝ) (d : List ℝ) :
    clipConst lo hi d = d.map (fun x => max (min lo hi) (min (max lo hi) x)) ∧
    clipNode lo hi d = d.map (fun x => max (min lo hi) (min (max lo hi) x)) := by
  have key : ∀ a b x : ℝ, a ≤ b → Expr.clamp a b x = max a (min b x) := by
    intro a b x hab
    unfold Expr.clamp
    by_cases h1 : a > x
    · rw [if_pos h1, min_eq_right (le_trans (le_of_lt h1) hab), max_eq_left (le_of_lt h1)]
    · rw [if_neg h1]
      by_cases h2 : b < x
      · rw [if_pos h2, min_eq_left (le_of_lt h2), max_eq_right hab]
      · rw [if_neg h2, min_eq_right (not_lt.mp h2), max_eq_right (not_lt.mp h1)]
  have : clipConst lo hi d = d.map (fun x => max (min lo hi) (min (max lo hi) x)) := by
    unfold clipConst
    by_cases h : lo > hi
    · rw [if_pos h, min_eq_right (le_of_lt h), max_eq_left (le_of_lt h)]
      exact List.map_congr_left (fun x _ => key hi lo x (le_of_lt h))
    · rw [if_neg h, min_eq_left (not_lt.mp h), max_eq_right (not_lt.mp h)]
      exact List.map_congr_left (fun x _ => key lo hi x (not_lt.mp h))
  exact ⟨this, this⟩

/-! ### Absolute value -/

/-- Unary `+` is the absolute value on constants; on other nodes only where the elements are non-negative.
Missing: negative elements of non-constant nodes (`c37_abs_wrong`). -/
theorem c37_abs_partial (d : List ℝ) :
    absConst d = d.map (fun x => |x|) ∧ ((∀ x ∈ d, 0 ≤ x) ↔ absNode d = d.map (fun x => |x|)) := by
  refine ⟨rfl, ?_⟩
  unfold absNode
  rw [List.map_inj_left]
  exact forall₂_congr (fun x _ => by rw [eq_comm, abs_eq_self])

/-- A negative element of a node is left negative. -/
theorem c37_abs_wrong (x : ℝ) (hx : x < 0) : absNode [x] = [x] ∧ absConst [x] = [-x] := by
  simp [absNode, absConst, abs_of_neg hx]

/-! ### `l2norm` -/

/-- On a constant `l2norm` is the square of the Euclidean norm, on other nodes the absolute value of the first
element; so it is the norm for constants of norm 0 or 1, and for one-element nodes.  Missing: everything
else (`c37_l2norm_wrong`). -/
theorem c37_l2norm_partial (d : List ℝ) :
    l2Const d = norm2 d ^ 2 ∧ (l2Const d = norm2 d ↔ norm2 d = 0 ∨ norm2 d = 1) ∧
    (∀ x rest, d = x :: rest → l2Node d = |x|) ∧ (d.length = 1 → l2Node d = norm2 d) ∧
    (l2Node d = norm2 d ↔ ∀ x ∈ d.drop 1, x = 0) := by
  have e : l2Const d = norm2 d ^ 2 := (norm2_sq d).symm
  have n0 : 0 ≤ sumSq (d.drop 1) := sumSq_nonneg _
  have hsum : sumSq d = sumSq (d.take 1) + sumSq (d.drop 1) := by
    rw [sumSq_eq, sumSq_eq, sumSq_eq, ← List.sum_append, ← List.map_append, List.take_append_drop]
  have last : l2Node d = norm2 d ↔ ∀ x ∈ d.drop 1, x = 0 := by
    unfold l2Node norm2
    rw [← sumSq_eq, Real.sqrt_inj (sumSq_nonneg _) (sumSq_nonneg _), hsum]
    have h1 : sumSq (d.take 1) = sumSq (d.take 1) + sumSq (d.drop 1) ↔ sumSq (d.drop 1) = 0 := by
      constructor <;> intro h <;> linarith
    rw [h1, sumSq_eq]
    generalize d.drop 1 = t
    induction t with
    | nil => simp
    | cons x t ih =>
      have hx : 0 ≤ x ^ 2 := by positivity
      have ht : 0 ≤ (t.map (fun x => x ^ 2)).sum := by rw [← sumSq_eq]; exact sumSq_nonneg t
      simp only [List.map_cons, List.sum_cons, List.mem_cons, forall_eq_or_imp, ← ih]
      constructor
      · intro h
        exact ⟨pow_eq_zero_iff (two_ne_zero) |>.mp (by linarith), by linarith⟩
      · rintro ⟨rfl, h⟩; rw [h]; norm_num
  refine ⟨e, ?_, ?_, ?_, last⟩
  · rw [e]
    constructor
    · intro h
      have : norm2 d * (norm2 d - 1) = 0 := by ring_nf; linarith
      rcases mul_eq_zero.mp this with h | h
      · exact Or.inl h
      · exact Or.inr (by linarith)
    · rintro (h | h) <;> rw [h] <;> norm_num
  · rintro x rest rfl
    simp only [l2Node, List.take_succ_cons, List.take_zero, sumSq, List.foldl_cons, List.foldl_nil, zero_add]
    exact Real.sqrt_mul_self_eq_abs x
  · intro h
    obtain ⟨x, rfl⟩ := List.length_eq_one_iff.mp h
    exact last.mpr (by simp)

theorem norm34 : norm2 [3, 4] = 5 := by
  unfold norm2
  rw [show ([3, 4].map (fun x : ℝ => x ^ 2)).sum = 5 ^ 2 by norm_num]
  exact Real.sqrt_sq (by norm_num)

/-- [3, 4] has norm 5; as a constant `l2norm` says 25, as a node 3. -/
theorem c37_l2norm_wrong : norm2 [3, 4] = 5 ∧ l2Const [3, 4] = 25 ∧ l2Node [3, 4] = 3 := by
  refine ⟨norm34, ?_, ?_⟩
  · rw [(c37_l2norm_partial [3, 4]).1, norm34]; norm_num
  · rw [(c37_l2norm_partial [3, 4]).2.2.1 3 [4] rfl]; norm_num

/-! ### `clip_norm` -/

/-- A constant is clipped as documented when its norm is 0 or 1 (where `l2norm` is right); for every cap of at
least 1 the result has norm at most the cap.  Missing: the exact result for other constants, caps
below 1 (`c37_clip_norm_wrong`). -/
theorem c37_clip_norm_const_partial (cap : ℝ) (hc : 0 < cap) (d : List ℝ) :
    (norm2 d = 0 ∨ norm2 d = 1 → clipNormConst cap d = .ok (clipNorm cap d)) ∧
    (1 ≤ cap → ∃ r, clipNormConst cap d = .ok r ∧ norm2 r ≤ cap) := by
  constructor
  · intro h
    have e := (c37_l2norm_partial d).2.1.mpr h
    unfold clipNormConst clipNorm
    rw [if_pos hc, e]
    by_cases hh : norm2 d > cap
    · simp only [if_pos hh]
      congr 1
      exact List.map_congr_left (fun x _ => by ring)
    · simp only [if_neg hh]
      simp
  · intro h1
    unfold clipNormConst
    rw [if_pos hc, (c37_l2norm_partial d).1]
    refine ⟨_, rfl, ?_⟩
    by_cases hh : norm2 d ^ 2 > cap
    · simp only [if_pos hh]
      have hn : 1 < norm2 d := by
        by_contra hle
        have := norm2_nonneg d
        have : norm2 d ^ 2 ≤ 1 := by nlinarith [not_lt.mp hle]
        linarith
      have : (fun x : ℝ => x * cap / norm2 d ^ 2) = fun x => x * (cap / norm2 d ^ 2) := by funext x; ring
      rw [this, norm2_scale d _ (by positivity)]
      have e : norm2 d * (cap / norm2 d ^ 2) = cap / norm2 d := by field_simp
      rw [e]
      exact div_le_self (le_of_lt hc) (le_of_lt hn)
    · simp only [if_neg hh, List.map_id']
      nlinarith [norm2_nonneg d, not_lt.mp hh]

/-- A node of one element, at least `cap` in absolute value, is clipped as documented.  Missing: more
elements, and elements within the cap, which are blown up to it (`c37_clip_norm_wrong`). -/
theorem c37_clip_norm_node_partial (cap x : ℝ) (hc : 0 < cap) (hx : cap ≤ |x|) :
    clipNormNode cap [x] = .ok (clipNorm cap [x]) := by
  have e : l2Node [x] = norm2 [x] := (c37_l2norm_partial [x]).2.2.2.1 rfl
  have e' : l2Node [x] = |x| := (c37_l2norm_partial [x]).2.2.1 x [] rfl
  unfold clipNormNode clipNorm
  rw [if_pos hc, ← e, e']
  congr 1
  rcases lt_or_eq_of_le hx with h | h
  · rw [if_pos h]; simp; ring
  · rw [if_neg (by rw [h]; exact lt_irrefl _)]
    have : |x| ≠ 0 := by rw [← h]; exact ne_of_gt hc
    simp [h]; field_simp

/-- Exactly which constants `clip_norm` treats as documented: those whose norm and its square are at most the cap, and
those of norm 1. -/
theorem c37_clip_norm_const_exact (cap : ℝ) (hc : 0 < cap) (d : List ℝ) :
    clipNormConst cap d = .ok (clipNorm cap d) ↔ (norm2 d ≤ cap ∧ norm2 d ^ 2 ≤ cap) ∨ norm2 d = 1 := by
  have e := (c37_l2norm_partial d).1
  unfold clipNormConst clipNorm
  rw [if_pos hc, e]
  have n0 := norm2_nonneg d
  -- an element that is not zero, unless the norm is
  have hex : norm2 d ≠ 0 → ∃ x ∈ d, x ≠ 0 := by
    intro h
    by_contra hh
    push_neg at hh
    apply h
    have : (norm2 d) ^ 2 = 0 := by
      rw [norm2_sq, sumSq_eq]
      exact List.sum_eq_zero (fun y hy => by
        obtain ⟨x, hx, rfl⟩ := List.mem_map.1 hy
        rw [hh x hx]; ring)
    exact pow_eq_zero_iff (two_ne_zero) |>.1 this
  have scale : ∀ a b : ℝ, norm2 d ≠ 0 → d.map (fun x => x * a) = d.map (fun x => x * b) → a = b := by
    intro a b hn h
    obtain ⟨x, hx, hx0⟩ := hex hn
    have := (List.map_inj_left.1 h) x hx
    exact mul_left_cancel₀ hx0 this
  constructor
  · intro h
    have h := Outcome.ok.inj h
    by_cases h1 : norm2 d ^ 2 > cap
    · right
      have hn : norm2 d ≠ 0 := by rintro hh; rw [hh] at h1; simp at h1; linarith
      by_cases h2 : norm2 d > cap
      · simp only [if_pos h1, if_pos h2] at h
        have := scale (cap / norm2 d ^ 2) (cap / norm2 d) hn (by simpa [mul_div_assoc] using h)
        field_simp at this
        linarith
      · simp only [if_pos h1, if_neg h2] at h
        have := scale (cap / norm2 d ^ 2) 1 hn (by simpa [mul_div_assoc] using h)
        field_simp at this
        linarith
    · left
      refine ⟨?_, not_lt.1 h1⟩
      by_contra h2
      have h2 := not_le.1 h2
      have hn : norm2 d ≠ 0 := by linarith
      simp only [if_neg h1, if_pos h2] at h
      have := scale 1 (cap / norm2 d) hn (by simpa [mul_div_assoc] using h)
      field_simp at this
      linarith
  · rintro (⟨h1, h2⟩ | h1)
    · rw [if_neg (not_lt.2 h1)]
      simp [not_lt.2 h2]
    · rw [h1]
      by_cases h : 1 > cap <;> simp [h, mul_div_assoc]

/-- … and exactly which other nodes, among those whose first element is not 0 (by which it divides): those with no
other element than 0 after the first, and a first element at least as large as the cap. -/
theorem c37_clip_norm_node_exact (cap : ℝ) (hc : 0 < cap) (x : ℝ) (hx : x ≠ 0) (l : List ℝ) :
    clipNormNode cap (x :: l) = .ok (clipNorm cap (x :: l)) ↔ (∀ y ∈ l, y = 0) ∧ cap ≤ |x| := by
  have e1 : l2Node (x :: l) = |x| := (c37_l2norm_partial (x :: l)).2.2.1 x l rfl
  have e2 : l2Node (x :: l) = norm2 (x :: l) ↔ ∀ y ∈ l, y = 0 := (c37_l2norm_partial (x :: l)).2.2.2.2
  have hle : |x| ≤ norm2 (x :: l) := by
    rw [← e1]
    unfold l2Node norm2
    rw [← sumSq_eq]
    apply Real.sqrt_le_sqrt
    rw [sumSq_eq, sumSq_eq]
    simp only [List.take_succ_cons, List.take_zero, List.map_cons, List.map_nil, List.sum_cons, List.sum_nil]
    have : 0 ≤ (l.map fun x => x ^ 2).sum := List.sum_nonneg (fun y hy => by
      obtain ⟨z, _, rfl⟩ := List.mem_map.1 hy
      positivity)
    linarith
  have hx' : 0 < |x| := abs_pos.2 hx
  have hn : 0 < norm2 (x :: l) := lt_of_lt_of_le hx' hle
  unfold clipNormNode clipNorm
  rw [if_pos hc, e1]
  constructor
  · intro h
    have h := Outcome.ok.inj h
    by_cases h2 : norm2 (x :: l) > cap
    · rw [if_pos h2] at h
      have h3 : x * cap / |x| = x * (cap / norm2 (x :: l)) := by simpa using (List.map_inj_left.1 h) x (by simp)
      have h4 : |x| = norm2 (x :: l) := by
        field_simp at h3
        linarith
      refine ⟨e2.1 (by rw [e1, h4]), by rw [h4]; exact le_of_lt h2⟩
    · rw [if_neg h2] at h
      have h3 : x * cap / |x| = x := by simpa using (List.map_inj_left.1 (h.trans (List.map_id _).symm)) x (by simp)
      have h4 : |x| = cap := by
        field_simp at h3
        linarith
      refine ⟨e2.1 ?_, h4.ge⟩
      rw [e1]
      exact le_antisymm hle (by rw [h4]; exact not_lt.1 h2)
  · rintro ⟨h1, h2⟩
    have h3 := e2.2 h1
    rw [e1] at h3
    rw [← h3]
    congr 1
    rcases lt_or_eq_of_le h2 with h | h
    · rw [if_pos h]; simp [mul_div_assoc]
    · rw [if_neg (by rw [h]; exact lt_irrefl _), h]
      simp [mul_div_assoc, ne_of_gt hx']

example : clipNormConst 5 [2] = .ok (clipNorm 5 [2]) :=
  (c37_clip_norm_const_exact 5 (by norm_num) [2]).2 (.inl (by
    have : norm2 [2] = 2 := by
      unfold norm2
      rw [show ([2].map (fun x : ℝ => x ^ 2)).sum = 2 ^ 2 by norm_num, Real.sqrt_sq (by norm_num)]
    rw [this]
    norm_num))

example : clipNormNode 2 [3, 0] = .ok (clipNorm 2 [3, 0]) ∧ clipNormNode 2 [3, 4] ≠ .ok (clipNorm 2 [3, 4]) :=
  ⟨(c37_clip_norm_node_exact 2 (by norm_num) 3 (by norm_num) [0]).2 (by norm_num),
    fun h => absurd ((c37_clip_norm_node_exact 2 (by norm_num) 3 (by norm_num) [4]).1 h).1 (by norm_num)⟩

/-- A constant of norm 5 is shrunk to norm 1 by a cap of 5, one of norm 0.9 keeps its norm above a cap of
0.85, and a node of norm 1 is blown up to norm 10 by a cap of 10. -/
theorem c37_clip_norm_wrong :
    (∃ r, clipNormConst 5 [3, 4] = .ok r ∧ norm2 [3, 4] = 5 ∧ norm2 r = 1) ∧
    (clipNormConst (85 / 100) [9 / 10] = .ok [9 / 10] ∧ norm2 [9 / 10] > 85 / 100) ∧
    (clipNormNode 10 [1] = .ok [10] ∧ norm2 [1] = 1) := by
  refine ⟨⟨[3 * (1 / 5), 4 * (1 / 5)], ?_, norm34, ?_⟩, ⟨?_, ?_⟩, ?_, ?_⟩
  · unfold clipNormConst
    rw [c37_l2norm_wrong.2.1, if_pos (by norm_num)]
    simp only [List.map_cons, List.map_nil, if_pos (show (25 : ℝ) > 5 by norm_num)]
    congr 2 <;> norm_num
  · have := norm2_scale [3, 4] (1 / 5) (by norm_num)
    rw [norm34] at this
    simpa using this
  · unfold clipNormConst
    rw [if_pos (by norm_num)]
    have : l2Const [9 / 10] = 81 / 100 := by simp [l2Const, sumSq]; norm_num
    simp only [this, List.map_cons, List.map_nil, if_neg (show ¬ (81 / 100 : ℝ) > 85 / 100 by norm_num)]
  · unfold norm2
    rw [show ([9 / 10].map (fun x : ℝ => x ^ 2)).sum = (9 / 10) ^ 2 by norm_num, Real.sqrt_sq (by norm_num)]
    norm_num
  · unfold clipNormNode
    rw [if_pos (by norm_num), (c37_l2norm_partial [1]).2.2.1 1 [] rfl]
    simp
  · simp [norm2]

end Verif.Props
