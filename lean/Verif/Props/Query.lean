import Verif.Props.Leaf
import Verif.Lemmas.Op
/-!
# C63: asking tensors about their size and contents

Also the reading of all elements (C09), the loose size test (C11) and moving a tensor into a placeholder (C43).
-/
namespace Verif.Props
open Spec Tensor
variable {T : Type}

/-- C09: `expose` returns one element per coordinate, in index order. -/
theorem c09_expose (t : Tensor T) (s : List Nat) (f : List Nat → T) (h : Holds t s f) :
    ∃ v, t.expose = .ok v ∧ v.length = vol s ∧ ∀ c, InRange s c → v[flat s c]? = some (f c) := by
  obtain ⟨buf, hb, hl, hd⟩ := h.data
  have hn : t.nElems = buf.length := by
    simp only [nElems, hb, h.shape]; rw [Shape.nElems_eq h.full.1, hl]
  refine ⟨buf, ?_, hl, hd⟩
  unfold expose
  rw [Op.holds_isAlloc h, Outcome.assert_true, Outcome.ok_bind]
  simp only [hb]
  rw [if_pos (by omega), hn, List.take_length]

/-- C09: exposing an unallocated tensor is an assertion failure. -/
theorem c09_expose_unallocated (t : Tensor T) (h : t.isAlloc = false) : t.expose = .abort := by
  unfold expose; rw [h]; rfl

example : Tensor.expose (⟨some [0, 1, 2, 3, 4, 5], [2, 3], [0, 3]⟩ : Tensor Nat) = .ok [0, 1, 2, 3, 4, 5] := rfl
example : Tensor.expose (⟨none, [], [0, 3]⟩ : Tensor Nat) = .abort := c09_expose_unallocated _ rfl

/-- C63: two allocated tensors, neither of which is a single element, have the same size exactly when their shapes
are equal after removing leading and trailing ones. -/
theorem c63_same_size (t u : Tensor T) (s s' : List Nat) (f g : List Nat → T) (h : Holds t s f) (h' : Holds u s' g)
    (hs : vol s ≠ 1) (hs' : vol s' ≠ 1) :
    t.isSameSize u = true ↔ ∃ m, TrimOf s m ∧ TrimOf s' m := by
  have one : ∀ l : List Nat, (∀ d ∈ l, d = 1) → vol l = 1 := by
    intro l hl
    induction l with
    | nil => rfl
    | cons d ds ih => simp only [vol]; rw [hl d (by simp), ih fun x hx => hl x (by simp [hx])]
  have full : ∀ l : List Nat, Full l → vol l ≠ 1 → Full (Shape.tr l) := by
    intro l hf hv
    obtain ⟨m, n, e, _, _⟩ := Shape.trimOf_tr l
    refine ⟨fun h0 => hv (one l fun d hd => ?_), fun d hd => hf.2 d ?_⟩
    · rw [e, h0] at hd
      simp only [List.append_nil, List.mem_append, List.mem_replicate] at hd
      rcases hd with hd | hd <;> exact hd.2
    · rw [e]; simp [hd]
  have idem : ∀ l : List Nat, Shape.tr (Shape.tr l) = Shape.tr l := by
    intro l
    obtain ⟨_, _, _, h1, h2⟩ := Shape.trimOf_tr l
    exact Shape.tr_of_trimOf ⟨0, 0, by simp, h1, h2⟩
  unfold isSameSize
  rw [Op.holds_isAlloc h, Op.holds_isAlloc h']
  simp only [Bool.and_self, if_true, h.shape, h'.shape, Shape.trim_eq]
  rw [Shape.compat_full (full s h.full hs) (full s' h'.full hs')]
  constructor
  · rintro (⟨_, e⟩ | ⟨_, e⟩)
    · exact ⟨Shape.tr s, Shape.trimOf_tr s, e ▸ Shape.trimOf_tr s'⟩
    · rw [idem, idem] at e
      exact ⟨Shape.tr s, Shape.trimOf_tr s, e ▸ Shape.trimOf_tr s'⟩
  · rintro ⟨m, h1, h2⟩
    have e : Shape.tr s = Shape.tr s' := by rw [← Shape.trimOf_iff.1 h1, ← Shape.trimOf_iff.1 h2]
    exact .inl ⟨by rw [e], e⟩

/-- C63: `is_same_size` does not depend on the order, for any two tensors; when one of the two is not allocated it is
the compatibility of the allowed shapes. -/
theorem c63_same_size_symm (t u : Tensor T) : t.isSameSize u = u.isSameSize t ∧
    ((t.isAlloc = false ∨ u.isAlloc = false) → t.isSameSize u = t.allowed.isCompatibleWith u.allowed) := by
  refine ⟨?_, fun h => ?_⟩
  · unfold isSameSize
    rw [Bool.and_comm, Shape.compat_comm t.alloc.trim, Shape.compat_comm t.allowed]
  · unfold isSameSize
    rcases h with h | h <;> simp [h]

/-- C63, negative: a single element, of any rank, has "the same size" as every allocated tensor. -/
theorem c63_single_same_as_all (t u : Tensor T) (s s' : List Nat) (f g : List Nat → T) (h : Holds t s f) (h' : Holds u s' g)
    (hs : ∀ d ∈ s, d = 1) : t.isSameSize u = true := by
  have e : Shape.trim s = [] := by
    rw [Shape.trim_eq]
    exact Shape.tr_of_trimOf ⟨s.length, 0, by simpa using List.eq_replicate_of_mem hs, by simp, by simp⟩
  unfold isSameSize
  rw [Op.holds_isAlloc h, Op.holds_isAlloc h']
  simp only [Bool.and_self, if_true, h.shape, h'.shape, e]
  simp

example : Tensor.isSameSize (⟨some [1, 2], [1, 2], [0, 2]⟩ : Tensor Nat) ⟨some [3, 4], [2], [2]⟩ = true ∧
    Tensor.isSameSize (⟨some [1, 2], [1, 2], [0, 2]⟩ : Tensor Nat) ⟨some [3, 4, 5], [3], [0]⟩ = false ∧
    Tensor.isSameSize (⟨some [1], [1], [1]⟩ : Tensor Nat) ⟨some [3, 4, 5], [3], [3]⟩ = true ∧
    Tensor.isSameSize (⟨some [1, 2], [1, 2], [0, 2]⟩ : Tensor Nat) ⟨none, [], [3, 2]⟩ = true := by decide

/-- C63: two tensors are compatible when the shapes they report are: for allocated ones, the shapes of their data;
for an unallocated one, its allowed shape.  The answer does not depend on the order. -/
theorem c63_compatible (t u : Tensor T) :
    t.isCompatibleWith u = u.isCompatibleWith t ∧
    (∀ s s' f g, Holds t s f → Holds u s' g → (t.isCompatibleWith u = true ↔
      s = s' ∨ (s.length ≠ s'.length ∧ ∃ m, TrimOf s m ∧ TrimOf s' m))) ∧
    (∀ s f, Holds t s f → u.isAlloc = false → t.isCompatibleWith u = Shape.isCompatibleWith s u.allowed) ∧
    (t.isAlloc = false → u.isAlloc = false → t.isCompatibleWith u = t.allowed.isCompatibleWith u.allowed) := by
  refine ⟨Shape.compat_comm _ _, fun s s' f g h h' => ?_, fun s f h h' => ?_, fun h h' => ?_⟩
  · unfold isCompatibleWith
    rw [Op.holds_getShape h, Op.holds_getShape h', Shape.compat_full h.full h'.full]
    constructor
    · rintro (h | ⟨h1, h2⟩)
      · exact .inl h.2
      · exact .inr ⟨h1, Shape.tr s, Shape.trimOf_tr s, h2 ▸ Shape.trimOf_tr s'⟩
    · rintro (h | ⟨h1, m, h2, h3⟩)
      · exact .inl ⟨by rw [h], h⟩
      · exact .inr ⟨h1, by rw [← Shape.trimOf_iff.1 h2, ← Shape.trimOf_iff.1 h3]⟩
  · unfold isCompatibleWith
    rw [Op.holds_getShape h]
    unfold getShape; rw [h']; rfl
  · unfold isCompatibleWith getShape
    rw [h, h']; rfl

example : Tensor.isCompatibleWith (⟨some [1, 2], [1, 2], [0, 2]⟩ : Tensor Nat) ⟨none, [], [0, 2]⟩ = true ∧
    Tensor.isCompatibleWith (⟨some [1, 2], [1, 2], [0, 2]⟩ : Tensor Nat) ⟨none, [], [3, 2]⟩ = false := by decide

/-- C11: an allocated tensor loosely accepts exactly the vectors that are not longer than its data; an unallocated one
with a fully known shape those not longer than the shape's element count; one with an unknown extent all vectors. -/
theorem c11_loosely_compatible (t : Tensor T) (n : Nat) :
    (∀ s f, Holds t s f → (t.isLooselyCompatibleWith n = true ↔ n ≤ vol s)) ∧
    (t.isAlloc = false → Full t.allowed → (t.isLooselyCompatibleWith n = true ↔ n ≤ vol t.allowed)) ∧
    (t.isAlloc = false → ¬ Full t.allowed → t.isLooselyCompatibleWith n = true) := by
  refine ⟨fun s f h => ?_, fun h hf => ?_, fun h hf => ?_⟩
  · unfold isLooselyCompatibleWith
    rw [Op.holds_isAlloc h]
    simp only [if_true, h.shape, (Shape.isFullyDefined_iff s).2 h.full, Shape.nElems_eq h.full.1, decide_eq_true_eq]
  · unfold isLooselyCompatibleWith
    rw [h]
    simp only [Bool.false_eq_true, if_false, (Shape.isFullyDefined_iff _).2 hf, if_true, Shape.nElems_eq hf.1, decide_eq_true_eq]
  · unfold isLooselyCompatibleWith
    rw [h]
    simp only [Bool.false_eq_true, if_false]
    rw [if_neg fun c => hf ((Shape.isFullyDefined_iff _).1 c)]

/-- C11: on an unallocated tensor whose allowed shape is not undefined, the loose test and the loose guess agree. -/
theorem c11_loosely_agrees (t : Tensor T) (n : Nat) (hn : 0 < n) (h : t.isAlloc = false) (hne : t.allowed ≠ []) :
    t.isLooselyCompatibleWith n = true ↔ ∃ s, t.looselyGuessShape n = .ok (some s) := by
  by_cases hf : Full t.allowed
  · rw [(c11_loosely_compatible t n).2.1 h hf, c11_loose_full t n hf, ← Shape.nElems_eq hf.1]
    by_cases hh : n ≤ t.allowed.nElems <;> simp [hh]
  · rw [(c11_loosely_compatible t n).2.2 h hf]
    obtain ⟨s, hs, _⟩ := c11_loose_part t n hn hne hf
    exact ⟨fun _ => ⟨s, hs⟩, fun _ => rfl⟩

example : Tensor.isLooselyCompatibleWith (⟨some [1, 2], [2], [0]⟩ : Tensor Nat) 3 = false ∧
    Tensor.isLooselyCompatibleWith (⟨none, [], [2, 0]⟩ : Tensor Nat) 3 = true ∧
    Tensor.isLooselyCompatibleWith (⟨none, [], [2, 1]⟩ : Tensor Nat) 3 = false := by decide

/-- C43: assigning a tensor moves it into the placeholder, whatever the placeholder's own shape: the placeholder then
holds exactly what the tensor held, is initialised, and the tensor is left empty with an undefined shape. -/
theorem c43_move (l : Leaf T) (t : Tensor T) (s : List Nat) (f : List Nat → T) (h : Holds t s f) :
    Holds (Leaf.movePlaceholder l t).1.data s f ∧ (Leaf.movePlaceholder l t).1.isInit = true ∧
    (Leaf.movePlaceholder l t).1.data.allowed = t.allowed ∧
    (Leaf.movePlaceholder l t).2.isAlloc = false ∧ (Leaf.movePlaceholder l t).2.getShape = [] :=
  ⟨⟨h.full, h.shape, h.data⟩, rfl, rfl, rfl, rfl⟩

/-- C43, negative: moving in a tensor does not check it against the placeholder's shape (the code says "changes shape"). -/
theorem c43_move_unchecked : ¬ ∀ (l : Leaf Nat) (t : Tensor Nat), l.data.isAlloc = true →
    (Leaf.movePlaceholder l t).1.data.alloc.isCompatibleWith l.data.alloc = true := by
  intro h
  have := h ⟨⟨some [1, 2], [2], [2]⟩, true, none⟩ ⟨some [1, 2, 3], [3], [3]⟩ rfl
  revert this; decide

example : (Leaf.movePlaceholder (Leaf.placeholder exEnv [0]) ⟨some [1, 2, 3], [3], [3]⟩).1.data.raw = some [1, 2, 3] := rfl

end Verif.Props
