import Verif.Model.Shape64
import Verif.Spec.Shape
import Verif.Lemmas.Shape
/-!
# Property theorems C07: machine arithmetic of element counts
-/
namespace Verif.Props
open Spec

theorem foldl_mul64 (l : List UInt64) (a : UInt64) :
    (l.foldl (fun a b => a * b) a).toNat = a.toNat * vol (l.map UInt64.toNat) % 2 ^ 64 := by
  induction l generalizing a with
  | nil => simp [vol, Nat.mod_eq_of_lt a.toNat_lt]
  | cons d ds ih =>
    rw [List.foldl_cons, ih, UInt64.toNat_mul, List.map_cons, vol]
    rw [Nat.mod_mul_mod, Nat.mul_assoc]

/-- C07: the machine `n_elems` is the true product modulo 2^64, for every list of extents. -/
theorem c07_modular (s : List UInt64) (hs : s ≠ []) :
    (Shape64.nElems s).toNat = vol (s.map UInt64.toNat) % 2 ^ 64 := by
  have : s.isEmpty = false := by simpa using hs
  simp [Shape64.nElems, this, foldl_mul64]

/-- C07: it is exact (and agrees with the unbounded model used elsewhere) whenever the true product
is below 2^64. -/
theorem c07_exact (s : List UInt64) (h : vol (s.map UInt64.toNat) < 2 ^ 64) :
    (Shape64.nElems s).toNat = Shape.nElems (s.map UInt64.toNat) := by
  by_cases hs : s = []
  · subst hs; rfl
  · rw [c07_modular s hs, Shape.nElems_eq (by simpa using hs), Nat.mod_eq_of_lt h]

example : vol (([3, 5, 7] : List UInt64).map UInt64.toNat) < 2 ^ 64 ∧
    (Shape64.nElems [3, 5, 7]).toNat = 105 := by decide

/-- C07: a shape is fully defined exactly when it has an extent and none is zero. -/
theorem c07_fully_defined (s : List UInt64) : Shape64.isFullyDefined s = true ↔ Full (s.map UInt64.toNat) := by
  have key : ∀ (l : List UInt64) (b : Bool), l.foldl (fun known d => known && decide (0 < d)) b = true ↔ b = true ∧ ∀ d ∈ l, 0 < d := by
    intro l
    induction l with
    | nil => simp
    | cons d l ih => intro b; simp only [List.foldl_cons, ih, Bool.and_eq_true, decide_eq_true_eq, List.mem_cons, forall_eq_or_imp, and_assoc]
  unfold Shape64.isFullyDefined Full
  cases s with
  | nil => simp
  | cons d l =>
    simp only [List.isEmpty_cons, Bool.false_eq_true, if_false]
    rw [key]
    simp only [true_and, List.map_cons, ne_eq, reduceCtorEq, not_false_eq_true, List.mem_cons, List.mem_map, forall_eq_or_imp, forall_exists_index, and_imp, forall_apply_eq_imp_iff₂]
    rfl

/-- C07, negative: exactness does not hold for every fully defined shape.  The shape
`{2^32, 2^32}` is fully defined, its machine element count is 0, and the allocator is asked for 0
bytes without reporting failure. -/
theorem c07_not_exact : ¬ ∀ s : List UInt64, Shape64.isFullyDefined s = true →
    (Shape64.nElems s).toNat = vol (s.map UInt64.toNat) := by
  intro h
  have := h [4294967296, 4294967296] (by decide)
  revert this; decide

/-- C07, negative: the same shape passes the allocator's overflow guard. -/
theorem c07_guard_bypassed :
    Shape64.isFullyDefined [4294967296, 4294967296] = true ∧
    Shape64.allocBytes 8 (Shape64.nElems [4294967296, 4294967296]) = some 0 := by decide

/-- C07: the allocator's guard is exact: it returns null iff the byte count does not fit, and
otherwise requests exactly `sizeof(T) * n` bytes. -/
theorem c07_alloc_guard (sz n : UInt64) (hsz : 0 < sz.toNat) :
    (Shape64.allocBytes sz n = none ↔ 2 ^ 64 ≤ sz.toNat * n.toNat) ∧
    (∀ b, Shape64.allocBytes sz n = some b → b.toNat = sz.toNat * n.toNat) := by
  have key : n > UInt64.ofNat (2 ^ 64 - 1) / sz ↔ 2 ^ 64 ≤ sz.toNat * n.toNat := by
    rw [gt_iff_lt, UInt64.lt_iff_toNat_lt, UInt64.toNat_div]
    have : (UInt64.ofNat (2 ^ 64 - 1)).toNat = 2 ^ 64 - 1 := by decide
    rw [this, Nat.div_lt_iff_lt_mul hsz, Nat.mul_comm]
    omega
  unfold Shape64.allocBytes
  constructor
  · rw [← key]; split <;> simp_all
  · intro b hb
    split at hb
    · cases hb
    · rename_i h
      injection hb with hb
      subst hb
      rw [UInt64.toNat_mul, Nat.mod_eq_of_lt]
      rw [key] at h; omega

example : Shape64.allocBytes 8 (UInt64.ofNat (2 ^ 61)) = none ∧
    Shape64.allocBytes 8 (UInt64.ofNat (2 ^ 61 - 1)) = some (UInt64.ofNat (2 ^ 64 - 8)) := by decide

end Verif.Props
