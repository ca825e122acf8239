import Verif.Lemmas.Compat
/-!
# Property theorems C01-C06: shapes
-/
namespace Verif.Props
open Spec Shape

/-! ## C01 -/

/-- C01: index → coordinate → index, for every index below `n_elems`. -/
theorem c01_idx_roundtrip (s : Shape) (hs : Full s) (i : Nat) (hi : i < s.nElems) :
    ∃ c, s.coordinateFromIdx i = .ok c ∧ InRange s c ∧ s.flatIdx c = .ok i := by
  rw [nElems_eq hs.1] at hi
  refine ⟨coords s i, coordinateFromIdx_eq hs.2 i, coords_inRange hs.2 i, ?_⟩
  rw [flatIdx_eq s _ hs.1, flat_coords hs.2 hi]
  intro h
  have := coords_length s i
  rw [h] at this
  exact hs.1 (by simpa using this.symm)

/-- C01: coordinate → index → coordinate, for every in-range coordinate; and the flat index of an
in-range coordinate is below `n_elems`. -/
theorem c01_coord_roundtrip (s : Shape) (hs : Full s) (c : List Nat) (hc : InRange s c) :
    ∃ i, s.flatIdx c = .ok i ∧ i < s.nElems ∧ s.coordinateFromIdx i = .ok c := by
  have hne : c ≠ [] := by
    rintro rfl
    exact hs.1 (by simpa using hc.1.symm)
  refine ⟨flat s c, flatIdx_eq s c hs.1 hne, ?_, ?_⟩
  · rw [nElems_eq hs.1]; exact flat_lt hc
  · rw [coordinateFromIdx_eq hs.2, coords_flat hc]

/-- C01: distinct in-range coordinates have distinct flat indices. -/
theorem c01_flat_injective (s : Shape) (hs : Full s) (c c' : List Nat) (hc : InRange s c)
    (hc' : InRange s c') (h : s.flatIdx c = s.flatIdx c') : c = c' := by
  obtain ⟨i, h1, _, h3⟩ := c01_coord_roundtrip s hs c hc
  obtain ⟨j, h4, _, h6⟩ := c01_coord_roundtrip s hs c' hc'
  rw [h1, h4] at h
  injection h with h
  subst h
  rw [h3] at h6
  injection h6

/-- The rejected inputs: an unknown extent makes `coordinate_from_idx` divide by zero, and an
empty coordinate makes `flat_idx` read out of bounds. -/
theorem c01_ub (s : Shape) (i : Nat) (h : 0 ∈ s) :
    s.coordinateFromIdx i = .ub ∧ s.flatIdx [] = .ub := ⟨coordLoop_ub h i, rfl⟩

example : Full [2, 3, 4] ∧ 17 < Shape.nElems [2, 3, 4] ∧ InRange [2, 3, 4] [1, 2, 2] ∧
    Shape.flatIdx [2, 3, 4] [1, 2, 2] = .ok 17 ∧
    Shape.coordinateFromIdx [2, 3, 4] 17 = .ok [1, 2, 2] := by
  refine ⟨by decide, by decide, ⟨by decide, by decide⟩, by decide, by decide⟩

/-! ## C02 -/

/-- C02: `iterate` terminates normally, the `i`-th call carries index `i` (so there are exactly
`n_elems` calls), a coordinate/index pair is passed iff the coordinate is in range and the index is
its flat index, and no coordinate is passed twice. -/
theorem c02_iterate (s : Shape) (hs : Full s) :
    ∃ calls, s.iterate = .ok calls ∧
      calls.map Prod.snd = List.range s.nElems ∧
      (∀ c i, (c, i) ∈ calls ↔ InRange s c ∧ s.flatIdx c = .ok i) ∧
      (calls.map Prod.fst).Nodup := by
  refine ⟨_, iterate_eq hs, ?_, ?_, ?_⟩
  · rw [nElems_eq hs.1]; simp [Function.comp_def]
  · intro c i
    simp only [List.mem_map, List.mem_range, Prod.mk.injEq]
    constructor
    · rintro ⟨j, hj, rfl, rfl⟩
      obtain ⟨c, h1, h2, h3⟩ := c01_idx_roundtrip s hs j (by rw [nElems_eq hs.1]; exact hj)
      rw [coordinateFromIdx_eq hs.2] at h1
      injection h1 with h1
      subst h1
      exact ⟨h2, h3⟩
    · rintro ⟨h1, h2⟩
      obtain ⟨j, h3, h4, h5⟩ := c01_coord_roundtrip s hs c h1
      rw [h2] at h3
      injection h3 with h3
      subst h3
      rw [coordinateFromIdx_eq hs.2] at h5
      injection h5 with h5
      exact ⟨i, by rw [← nElems_eq hs.1]; exact h4, h5, rfl⟩
  · simp only [List.map_map, Function.comp_def]
    rw [List.nodup_iff_pairwise_ne, List.pairwise_map]
    refine List.Pairwise.imp_of_mem ?_ List.nodup_range
    intro i j hi hj hne h
    exact hne (coords_inj hs.2 (by simpa using hi) (by simpa using hj) h)

example : ∃ calls, Shape.iterate [2, 3] = .ok calls ∧ calls.length = 6 ∧ ([1, 2], 5) ∈ calls := by
  exact ⟨_, rfl, by decide, by decide⟩

/-! ## C03 -/

/-- C03: reflexivity. -/
theorem c03_refl (a : Shape) : a.isCompatibleWith a = true := compat_self a

/-- C03: symmetry. -/
theorem c03_symm (a b : Shape) : a.isCompatibleWith b = b.isCompatibleWith a := compat_comm a b

/-- C03: the undefined shape is compatible with everything. -/
theorem c03_undefined (a : Shape) :
    Shape.isCompatibleWith [] a = true ∧ Shape.isCompatibleWith a [] = true := by simp

/-- C03: for equal ranks, pointwise "equal or unknown". -/
theorem c03_same_rank (a b : Shape) (h : a.length = b.length) :
    a.isCompatibleWith b = true ↔ DimsAgree a b := compat_same_rank h

example : DimsAgree [2, 0, 3] [2, 5, 0] ∧ Shape.isCompatibleWith [1, 2, 0, 3] [2, 5, 3, 1, 1] = true ∧
    Shape.isCompatibleWith [2, 3] [3, 2] = false := by
  refine ⟨⟨by decide, by decide⟩, by decide, by decide⟩

/-- Compatibility is not transitive: an unknown extent is compatible with two different ones. -/
theorem c03_not_transitive : ¬ ∀ a b c : Shape, a.isCompatibleWith b = true →
    b.isCompatibleWith c = true → a.isCompatibleWith c = true := by
  intro h
  have := h [2] [0] [3] (by decide) (by decide)
  revert this; decide

/-! ## C04 -/

/-- C04: what compatibility of fully defined shapes means. -/
theorem c04_characterisation (a b : Shape) (ha : Full a) (hb : Full b) :
    a.isCompatibleWith b = true ↔
      (a.length = b.length ∧ a = b) ∨ (a.length ≠ b.length ∧ ∃ t, TrimOf a t ∧ TrimOf b t) := by
  rw [compat_full ha hb]
  constructor
  · rintro (h | ⟨h1, h2⟩)
    · exact .inl h
    · exact .inr ⟨h1, tr a, trimOf_tr a, h2 ▸ trimOf_tr b⟩
  · rintro (h | ⟨h1, t, h2, h3⟩)
    · exact .inl h
    · exact .inr ⟨h1, by rw [tr_of_trimOf h2, tr_of_trimOf h3]⟩

/-- C04: compatible fully defined shapes have the same number of elements. -/
theorem c04_same_count (a b : Shape) (ha : Full a) (hb : Full b)
    (h : a.isCompatibleWith b = true) : a.nElems = b.nElems := by
  rw [nElems_eq ha.1, nElems_eq hb.1]; exact compat_full_vol ha hb h

/-- C04: among fully defined shapes, compatibility is transitive when the ranks of the outer
shapes differ (it is then equality up to padding). -/
theorem c04_trans (a b c : Shape) (ha : Full a) (hb : Full b) (hc : Full c)
    (hr : a.length ≠ c.length)
    (h1 : a.isCompatibleWith b = true) (h2 : b.isCompatibleWith c = true) :
    a.isCompatibleWith c = true := by
  rw [compat_full ha hb] at h1
  rw [compat_full hb hc] at h2
  rw [compat_full ha hc]
  have e1 : tr a = tr b := by rcases h1 with ⟨_, h⟩ | ⟨_, h⟩ <;> simp [h]
  have e2 : tr b = tr c := by rcases h2 with ⟨_, h⟩ | ⟨_, h⟩ <;> simp [h]
  exact .inr ⟨hr, e1.trans e2⟩

/-- Equal-rank shapes differing only in where the padding is are *not* compatible although both
are compatible with the trimmed shape: full transitivity fails even for fully defined shapes. -/
theorem c04_not_transitive : ¬ ∀ a b c : Shape, Full a → Full b → Full c →
    a.isCompatibleWith b = true → b.isCompatibleWith c = true → a.isCompatibleWith c = true := by
  intro h
  have := h [1, 2] [2] [2, 1] (by decide) (by decide) (by decide) (by decide) (by decide)
  revert this; decide

example : Full [1, 2, 3] ∧ Full [2, 3, 1, 1] ∧ Shape.isCompatibleWith [1, 2, 3] [2, 3, 1, 1] = true ∧
    TrimOf [1, 2, 3] [2, 3] ∧ TrimOf [2, 3, 1, 1] [2, 3] :=
  ⟨by decide, by decide, by decide, ⟨1, 0, by decide⟩, ⟨0, 2, by decide⟩⟩

/-! ## C05 -/

/-- C05: merging with the undefined shape. -/
theorem c05_undefined (a : Shape) :
    Shape.mergeWith [] a = .ok a ∧ Shape.mergeWith a [] = .ok a := by
  cases a <;> simp [mergeWith]

/-- C05: defined shapes of different rank are rejected. -/
theorem c05_rank_mismatch (a b : Shape) (ha : a ≠ []) (hb : b ≠ []) (h : a.length ≠ b.length) :
    a.mergeWith b = .throw .logicError := by
  simp [mergeWith, ha, hb, h]

theorem mergeDim_eq (x y : Nat) : mergeDim x y = if x = 0 then y else x := by
  unfold mergeDim
  by_cases hx : x = 0 <;> by_cases hy : y = 0 <;> simp_all

theorem merge_same_rank (a b : Shape) (h : a.length = b.length) :
    a.mergeWith b = .ok (List.zipWith mergeDim a b) := by
  unfold mergeWith
  by_cases ha : a = []
  · subst ha
    have : b = [] := by simpa using h.symm
    subst this; rfl
  · have hb : b ≠ [] := by rintro rfl; simp at h; exact ha h
    simp [ha, hb, h]

/-- C05: same rank: position `i` of the result is the receiver's extent if known, else the
argument's. -/
theorem c05_pointwise (a b : Shape) (h : a.length = b.length) :
    ∃ m, a.mergeWith b = .ok m ∧ m.length = a.length ∧
      ∀ i, i < a.length → m.getD i 0 = if a.getD i 0 = 0 then b.getD i 0 else a.getD i 0 := by
  refine ⟨_, merge_same_rank a b h, by simp [h], fun i hi => ?_⟩
  have hi' : i < b.length := by omega
  rw [getD_lt _ _ _ (by simp; omega), getD_lt a _ _ hi, getD_lt b _ _ hi', List.getElem_zipWith,
    mergeDim_eq]

/-- C05: for compatible shapes of equal rank the merge is the least shape refining both, is
compatible with both, and does not depend on the order. -/
theorem c05_least_refinement (a b : Shape) (h : a.length = b.length)
    (hc : a.isCompatibleWith b = true) :
    ∃ m, a.mergeWith b = .ok m ∧ b.mergeWith a = .ok m ∧ Refines m a ∧ Refines m b ∧
      m.isCompatibleWith a = true ∧ m.isCompatibleWith b = true ∧
      ∀ t, Refines t a → Refines t b → Refines t m := by
  obtain ⟨m, h1, h2, h3⟩ := c05_pointwise a b h
  obtain ⟨m', h1', h2', h3'⟩ := c05_pointwise b a h.symm
  have ag := ((compat_same_rank h).1 hc).2
  have hmm : m = m' := by
    apply List.ext_getElem (by omega)
    intro i hi hi'
    have e1 := h3 i (by omega)
    have e2 := h3' i (by omega)
    have e3 := ag i (by omega)
    rw [getD_lt _ _ _ hi] at e1
    rw [getD_lt _ _ _ hi'] at e2
    rw [e1, e2]
    split <;> split <;> omega
  subst hmm
  have ra : Refines m a := ⟨h2, fun i hi => by
    have e1 := h3 i hi
    by_cases hz : a.getD i 0 = 0
    · exact .inl hz
    · rw [if_neg hz] at e1; exact .inr e1⟩
  have rb : Refines m b := ⟨h2', fun i hi => by
    have e1 := h3' i hi
    by_cases hz : b.getD i 0 = 0
    · exact .inl hz
    · rw [if_neg hz] at e1; exact .inr e1⟩
  refine ⟨m, h1, h1', ra, rb, ?_, ?_, ?_⟩
  · rw [compat_same_rank h2]
    exact ⟨h2, fun i hi => by rcases ra.2 i (by omega) with h | h <;> omega⟩
  · rw [compat_same_rank (by omega)]
    exact ⟨by omega, fun i hi => by rcases rb.2 i (by omega) with h | h <;> omega⟩
  · intro t ta tb
    refine ⟨by rw [ta.1, h2], fun i hi => ?_⟩
    have e1 := h3 i (by omega)
    have e2 := ta.2 i (by omega)
    have e3 := tb.2 i (by omega)
    by_cases hz : a.getD i 0 = 0
    · rw [if_pos hz] at e1
      rcases e3 with e3 | e3
      · left; rw [e1, e3]
      · right; rw [e1, e3]
    · rw [if_neg hz] at e1
      right
      rcases e2 with e2 | e2
      · exact absurd e2 hz
      · rw [e1, e2]

example : Shape.isCompatibleWith [2, 0, 0] [2, 3, 0] = true ∧
    Shape.mergeWith [2, 0, 0] [0, 3, 0] = .ok [2, 3, 0] := by decide

/-- Without compatibility the order matters: conflicting extents keep the receiver's. -/
theorem c05_not_commutative : ¬ ∀ a b : Shape, a.length = b.length → a.mergeWith b = b.mergeWith a := by
  intro h
  have := h [2] [3] rfl
  revert this; decide

/-! ## C06 -/

/-- C06: `with_rank` gives exactly the requested rank, agrees on the common prefix and pads with
ones. -/
theorem c06_with_rank (s : Shape) (r : Nat) :
    (s.withRank r).length = r ∧
      ∀ i, i < r → (s.withRank r).getD i 0 = if i < s.length then s.getD i 0 else 1 := by
  unfold withRank
  split
  · rename_i h
    refine ⟨by simp; omega, fun i hi => ?_⟩
    have : i < s.length := by omega
    simp [this, List.getD_eq_getElem?_getD, hi]
  · split
    · rename_i h1 h2
      refine ⟨by simp; omega, fun i hi => ?_⟩
      by_cases h : i < s.length
      · rw [if_pos h, List.getD_eq_getElem?_getD, List.getElem?_append_left h,
          ← List.getD_eq_getElem?_getD]
      · simp only [List.getD_eq_getElem?_getD, h, if_false]
        rw [List.getElem?_append_right (by omega), List.getElem?_replicate]
        rw [if_pos (by omega)]; rfl
    · have : s.length = r := by omega
      subst this
      exact ⟨rfl, fun i hi => by simp [hi]⟩

/-- C06: `with_rank_at_least`/`at_most` act as `with_rank` when the rank is too small/large and
otherwise change nothing. -/
theorem c06_at_least_at_most (s : Shape) (r : Nat) :
    s.withRankAtLeast r = (if r > s.length then s.withRank r else s) ∧
    s.withRankAtMost r = (if r < s.length then s.withRank r else s) := by
  constructor
  · unfold withRankAtLeast withRank
    by_cases h : r > s.length
    · have h' : ¬ r < s.length := by omega
      simp [h, h']
    · simp [h]
  · unfold withRankAtMost withRank
    by_cases h : r < s.length <;> simp [h]

/-- C06: raising the rank of a defined shape never changes its element count. -/
theorem c06_padding_count (s : Shape) (r : Nat) (hs : s ≠ []) (h : s.length ≤ r) :
    (s.withRank r).nElems = s.nElems ∧ (s.withRankAtLeast r).nElems = s.nElems := by
  have key : vol (s ++ List.replicate (r - s.length) 1) = vol s := by simp [vol_append]
  have hne : s ++ List.replicate (r - s.length) 1 ≠ [] := by simp [hs]
  constructor
  · unfold withRank
    rw [if_neg (by omega)]
    split
    · rw [nElems_eq hs, nElems_eq hne, key]
    · rfl
  · unfold withRankAtLeast
    split
    · rw [nElems_eq hs, nElems_eq hne, key]
    · rfl

/-- C06: `concatenate` is associative with the undefined shape as unit, appends defined shapes and
multiplies their element counts. -/
theorem c06_concatenate (a b c : Shape) :
    Shape.concatenate (Shape.concatenate a b) c = Shape.concatenate a (Shape.concatenate b c) ∧
    Shape.concatenate [] a = a ∧ Shape.concatenate a [] = a ∧
    Shape.concatenate a b = a ++ b ∧
    (a ≠ [] → b ≠ [] → (Shape.concatenate a b).nElems = a.nElems * b.nElems) := by
  have key : ∀ a b : Shape, Shape.concatenate a b = a ++ b := by
    intro a b; cases a <;> cases b <;> simp [Shape.concatenate]
  refine ⟨by simp [key], by simp [key], by simp [key], key a b, fun ha hb => ?_⟩
  rw [key, nElems_eq (by simp [ha]), nElems_eq ha, nElems_eq hb, vol_append]

/-- C06: `trim` removes exactly the leading and trailing ones. -/
theorem c06_trim_spec (s : Shape) : TrimOf s s.trim := by rw [trim_eq]; exact trimOf_tr s

/-- C06: `trim` is idempotent. -/
theorem c06_trim_idem (s : Shape) : s.trim.trim = s.trim := by
  rw [trim_eq, trim_eq]
  obtain ⟨_, _, _, h1, h2⟩ := trimOf_tr s
  exact tr_of_trimOf ⟨0, 0, by simp, h1, h2⟩

/-- C06: `trim` keeps the element count unless every extent is one; then the result is the
undefined shape. -/
theorem c06_trim_count (s : Shape) :
    (s.trim ≠ [] → s.trim.nElems = s.nElems) ∧ (s.trim = [] ↔ ∀ d ∈ s, d = 1) := by
  rw [trim_eq]
  constructor
  · intro h
    have hs : s ≠ [] := by rintro rfl; exact h rfl
    rw [nElems_eq h, nElems_eq hs, vol_tr]
  · constructor
    · intro h d hd
      obtain ⟨m, n, h1, _, _⟩ := trimOf_tr s
      rw [h1, h] at hd
      simp only [List.append_nil, List.mem_append, List.mem_replicate] at hd
      rcases hd with hd | hd <;> exact hd.2
    · intro h
      have : s = List.replicate s.length 1 := List.eq_replicate_iff.2 ⟨rfl, h⟩
      exact tr_of_trimOf ⟨s.length, 0, by simpa using this, by simp, by simp⟩

example : Shape.trim [1, 1, 2, 1, 3, 1] = [2, 1, 3] ∧ Shape.trim [1, 1] = [] ∧
    Shape.nElems (Shape.trim [1, 1]) = 0 ∧ Shape.nElems [1, 1] = 1 := by decide

end Verif.Props
